import Verif.Rewrite.Npn
import Mathlib.Data.List.Nodup
import Mathlib.Data.List.Perm.Subperm
import Mathlib.Tactic.IntervalCases

set_option autoImplicit false

/-!
# Exact NPN canonization: helper lemmas
-/

namespace Verif.TT

@[simp] theorem n_swapAdj (t : TT) (p : Nat) : (t.swapAdj p).n = t.n := rfl
@[simp] theorem n_flip (t : TT) (p : Nat) : (t.flip p).n = t.n := rfl
theorem wf_swapAdj (t : TT) (p : Nat) : (t.swapAdj p).WF := wf_ofFn _ _
theorem wf_flip (t : TT) (p : Nat) : (t.flip p).WF := wf_ofFn _ _

theorem eval_swapAdj {t : TT} {p : Nat} (h : p + 1 < t.n) (x : Nat → Bool) :
    (t.swapAdj p).eval x = t.eval fun k => x (sw p (p + 1) k) := eval_swap (by omega) h x

theorem eval_flip (t : TT) (i : Nat) (x : Nat → Bool) : (t.flip i).eval x = t.eval (upd x i (!x i)) := by
  rw [flip, eval_ofFn, eval]
  by_cases hi : i < t.n
  · congr 1
    apply pos_congr
    intro k hk
    simp only [upd]
    rw [testBit_pos _ _ _ hi, testBit_pos _ _ _ hk]
  · congr 1
    apply pos_congr
    intro k hk
    have : k ≠ i := by omega
    simp only [upd, this, if_false]
    exact testBit_pos _ _ _ hk

theorem num_inj : ∀ {l m : List Bool}, l.length = m.length → num l = num m → l = m := by
  intro l
  induction l with
  | nil => intro m h _; cases m <;> simp at h ⊢
  | cons a l ih =>
    intro m h e
    cases m with
    | nil => simp at h
    | cons b m =>
      simp only [num] at e
      have e1 : a = b := by cases a <;> cases b <;> simp at e ⊢ <;> omega
      subst e1
      rw [ih (by simpa using h) (by omega)]

end Verif.TT

namespace Verif.Npn

open TT (sw eval_ext)

/-- all swaps of the list, first to last -/
def swapsTT (t : TT) (l : List Nat) : TT := l.foldl TT.swapAdj t

/-- all flips of the list -/
def flipsTT (t : TT) (l : List Nat) : TT := l.foldl TT.flip t

/-- where variable `k` goes -/
def fwd (l : List Nat) (k : Nat) : Nat := l.foldl (fun k p => sw p (p + 1) k) k

/-- where it came from -/
def bwd (l : List Nat) (k : Nat) : Nat := l.foldr (fun p k => sw p (p + 1) k) k

theorem sw_sw (i j k : Nat) : sw i j (sw i j k) = k := by
  unfold sw; split_ifs <;> omega

theorem fwd_bwd (l : List Nat) (k : Nat) : fwd l (bwd l k) = k := by
  induction l generalizing k with
  | nil => rfl
  | cons p l ih =>
    show fwd l (sw p (p + 1) (sw p (p + 1) (bwd l k))) = k
    rw [sw_sw]; exact ih k

theorem bwd_fwd (l : List Nat) (k : Nat) : bwd l (fwd l k) = k := by
  induction l generalizing k with
  | nil => rfl
  | cons p l ih =>
    show sw p (p + 1) (bwd l (fwd l (sw p (p + 1) k))) = k
    rw [ih, sw_sw]

@[simp] theorem n_swapsTT (t : TT) (l : List Nat) : (swapsTT t l).n = t.n := by
  induction l generalizing t with
  | nil => rfl
  | cons p l ih => exact ih _

@[simp] theorem n_flipsTT (t : TT) (l : List Nat) : (flipsTT t l).n = t.n := by
  induction l generalizing t with
  | nil => rfl
  | cons p l ih => exact ih _

theorem wf_swapsTT {t : TT} (h : t.WF) (l : List Nat) : (swapsTT t l).WF := by
  induction l generalizing t with
  | nil => exact h
  | cons p l ih => exact ih (TT.wf_swapAdj _ _)

theorem wf_flipsTT {t : TT} (h : t.WF) (l : List Nat) : (flipsTT t l).WF := by
  induction l generalizing t with
  | nil => exact h
  | cons p l ih => exact ih (TT.wf_flip _ _)

theorem eval_swapsTT {t : TT} {l : List Nat} (h : ∀ p ∈ l, p + 1 < t.n) (x : Nat → Bool) :
    (swapsTT t l).eval x = t.eval fun k => x (fwd l k) := by
  induction l generalizing t with
  | nil => rfl
  | cons p l ih =>
    have := ih (t := t.swapAdj p) (fun q hq => h q (by simp [hq]))
    rw [show swapsTT t (p :: l) = swapsTT (t.swapAdj p) l from rfl, this,
      TT.eval_swapAdj (h p (by simp))]
    rfl

theorem testBit_mask (m : Nat) (l : List Nat) (k : Nat) :
    (mask m l).testBit k = Bool.xor (m.testBit k) ((mask 0 l).testBit k) := by
  induction l generalizing m with
  | nil => simp [mask]
  | cons p l ih =>
    rw [show mask m (p :: l) = mask (m ^^^ (1 <<< p)) l from rfl,
      show mask 0 (p :: l) = mask (0 ^^^ (1 <<< p)) l from rfl, ih, ih (0 ^^^ _), Nat.testBit_xor, Nat.testBit_xor]
    simp

theorem testBit_one_shl (p k : Nat) : (1 <<< p).testBit k = decide (k = p) := by
  rw [Nat.one_shiftLeft, Nat.testBit_two_pow]
  by_cases h : p = k <;> simp [h, eq_comm]

theorem eval_flipsTT (t : TT) (l : List Nat) (x : Nat → Bool) :
    (flipsTT t l).eval x = t.eval fun k => Bool.xor (x k) ((mask 0 l).testBit k) := by
  induction l generalizing t x with
  | nil => simp [flipsTT, mask]
  | cons p l ih =>
    rw [show flipsTT t (p :: l) = flipsTT (t.flip p) l from rfl, ih, TT.eval_flip]
    apply TT.eval_congr
    intro k _
    rw [show mask 0 (p :: l) = mask (0 ^^^ (1 <<< p)) l from rfl, testBit_mask (0 ^^^ _), Nat.testBit_xor, testBit_one_shl]
    simp only [TT.upd]
    by_cases h : k = p
    · subst h; simp
    · simp [h]

/-- the table after `i` swaps and `j` flips -/
def tab (swaps flips : List Nat) (t : TT) (i j : Nat) : TT := swapsTT (flipsTT t (flips.take j)) (swaps.take i)

/-- state after `i` swaps in round `j` -/
structure Inv (swaps flips : List Nat) (tt : TT) (i j : Nat) (s : St) : Prop where
  t1 : s.t1 = tab swaps flips tt i j
  t2 : s.t2 = tab swaps flips tt.not i j
  best : s.tmin = tab swaps flips (if s.invo then tt.not else tt) s.bs s.bf
  bs : s.bs ≤ swaps.length
  bf : s.bf ≤ flips.length
  minimal : ∀ i' j', (j' < j ∧ i' ≤ swaps.length) ∨ (j' = j ∧ i' ≤ i) →
    TT.num s.tmin.bits ≤ TT.num (tab swaps flips tt i' j').bits ∧
    TT.num s.tmin.bits ≤ TT.num (tab swaps flips tt.not i' j').bits

theorem minTT_cases (a b : TT) : minTT a b = a ∨ minTT a b = b := by
  unfold minTT; split <;> simp

theorem num_minTT (a b : TT) : TT.num (minTT a b).bits ≤ TT.num a.bits ∧ TT.num (minTT a b).bits ≤ TT.num b.bits := by
  unfold minTT TT.less
  split
  · rename_i h; simp at h; omega
  · rename_i h; simp at h; omega

/-- the step from one visited pair to the next -/
theorem upd_inv {swaps flips : List Nat} {tt : TT} {i j : Nat} {s : St}
    (t1 : s.t1 = tab swaps flips tt i j) (t2 : s.t2 = tab swaps flips tt.not i j)
    (best : s.tmin = tab swaps flips (if s.invo then tt.not else tt) s.bs s.bf)
    (bs : s.bs ≤ swaps.length) (bf : s.bf ≤ flips.length) (hi : i ≤ swaps.length) (hj : j ≤ flips.length)
    (hmin : ∀ i' j', (j' < j ∧ i' ≤ swaps.length) ∨ (j' = j ∧ i' < i) →
      TT.num s.tmin.bits ≤ TT.num (tab swaps flips tt i' j').bits ∧
      TT.num s.tmin.bits ≤ TT.num (tab swaps flips tt.not i' j').bits) :
    Inv swaps flips tt i j (upd i j s) := by
  unfold upd
  split
  · rename_i hlt
    have hm := num_minTT s.t1 s.t2
    have hle : TT.num (minTT s.t1 s.t2).bits ≤ TT.num s.tmin.bits := by
      simp only [TT.less, Bool.or_eq_true, decide_eq_true_eq] at hlt
      omega
    refine ⟨t1, t2, ?_, hi, hj, ?_⟩
    · show minTT s.t1 s.t2 = tab swaps flips (if decide (minTT s.t1 s.t2 = s.t2) = true then tt.not else tt) i j
      by_cases h : minTT s.t1 s.t2 = s.t2
      · simp only [h, decide_true, if_true]; exact t2
      · rw [if_neg (by simpa using h)]
        rcases minTT_cases s.t1 s.t2 with h' | h'
        · rw [h']; exact t1
        · exact absurd h' h
    · intro i' j' h
      show TT.num (minTT s.t1 s.t2).bits ≤ _ ∧ TT.num (minTT s.t1 s.t2).bits ≤ _
      by_cases he : j' = j ∧ i' = i
      · obtain ⟨rfl, rfl⟩ := he
        rw [← t1, ← t2]; exact hm
      · have := hmin i' j' (by omega)
        omega
  · rename_i hlt
    refine ⟨t1, t2, best, bs, bf, ?_⟩
    intro i' j' h
    by_cases he : j' = j ∧ i' = i
    · obtain ⟨rfl, rfl⟩ := he
      rw [← t1, ← t2]
      simp only [TT.less, Bool.or_eq_true, decide_eq_true_eq, not_or, not_lt] at hlt
      exact hlt
    · exact hmin i' j' (by omega)

theorem tab_snoc {swaps flips done : List Nat} {p : Nat} {l : List Nat} (e : swaps = done ++ p :: l) (t : TT) (j : Nat) :
    (tab swaps flips t done.length j).swapAdj p = tab swaps flips t (done.length + 1) j := by
  unfold tab swapsTT
  rw [e]
  rw [List.take_left' rfl, show done.length + 1 = (done ++ [p]).length by simp,
    show done ++ p :: l = (done ++ [p]) ++ l by simp, List.take_left' rfl, List.foldl_append]
  rfl

theorem swapLoop_inv {swaps flips : List Nat} {tt : TT} {j : Nat} (hj : j ≤ flips.length) :
    ∀ (l done : List Nat) (s : St), swaps = done ++ l → Inv swaps flips tt done.length j s →
      Inv swaps flips tt swaps.length j (swapLoop l done.length j s) := by
  intro l
  induction l with
  | nil => intro done s e h; rw [e] at h ⊢; simpa [swapLoop] using h
  | cons p l ih =>
    intro done s e h
    rw [swapLoop]
    have key := ih (done ++ [p]) (upd (done.length + 1) j { s with t1 := s.t1.swapAdj p, t2 := s.t2.swapAdj p }) (by simp [e])
      (by
        rw [List.length_append]
        refine upd_inv ?_ ?_ h.best h.bs h.bf ?_ hj ?_
        · show s.t1.swapAdj p = _
          rw [h.t1, tab_snoc e]; rfl
        · show s.t2.swapAdj p = _
          rw [h.t2, tab_snoc e]; rfl
        · rw [e]; simp
        · intro i' j' h'
          refine h.minimal i' j' ?_
          simp only [List.length_singleton] at h'
          omega)
    rw [List.length_append] at key
    exact key

/-- after a full round of swaps and one more swap of the first two variables the table is back -/
def Cyclic (n : Nat) (swaps : List Nat) : Prop := ∀ k, k < n → sw 0 1 (fwd swaps k) = k

theorem swap_round {swaps flips : List Nat} {tt : TT} (h : tt.WF) (hn : 2 ≤ tt.n) (hs : ∀ p ∈ swaps, p + 1 < tt.n)
    (hc : Cyclic tt.n swaps) (j : Nat) : (tab swaps flips tt swaps.length j).swapAdj 0 = flipsTT tt (flips.take j) := by
  refine eval_ext (TT.wf_swapAdj _ _) (wf_flipsTT h _) (by simp [tab]) ?_
  intro x
  rw [TT.eval_swapAdj (by simp [tab]; omega), tab, List.take_length, eval_swapsTT (by simpa using hs)]
  apply TT.eval_congr
  intro k hk
  rw [n_flipsTT] at hk
  show x (sw 0 1 (fwd swaps k)) = x k
  rw [hc k hk]

theorem flip_next {swaps flips done : List Nat} {p : Nat} {l : List Nat} (e : flips = done ++ p :: l) (t : TT) :
    (flipsTT t (flips.take done.length)).flip p = tab swaps flips t 0 (done.length + 1) := by
  unfold tab flipsTT swapsTT
  rw [e, List.take_left' rfl, show done.length + 1 = (done ++ [p]).length by simp,
    show done ++ p :: l = (done ++ [p]) ++ l by simp, List.take_left' rfl, List.foldl_append, List.take_zero]
  rfl

theorem flipLoop_inv {swaps flips : List Nat} {tt : TT} (h : tt.WF) (hn : 2 ≤ tt.n) (hs : ∀ p ∈ swaps, p + 1 < tt.n)
    (hc : Cyclic tt.n swaps) :
    ∀ (l done : List Nat) (s : St), flips = done ++ l → Inv swaps flips tt swaps.length done.length s →
      Inv swaps flips tt swaps.length flips.length (flipLoop swaps l done.length s) := by
  intro l
  induction l with
  | nil => intro done s e h; rw [e] at h ⊢; simpa [flipLoop] using h
  | cons p l ih =>
    intro done s e hi
    rw [flipLoop]
    have hlen : done.length + 1 ≤ flips.length := by rw [e]; simp
    have key := ih (done ++ [p]) (swapLoop swaps 0 (done.length + 1)
        (upd 0 (done.length + 1) { s with t1 := (s.t1.swapAdj 0).flip p, t2 := (s.t2.swapAdj 0).flip p })) (by simp [e])
      (by
        rw [List.length_append]
        refine swapLoop_inv hlen swaps [] _ (by simp) ?_
        refine upd_inv ?_ ?_ hi.best hi.bs hi.bf (by simp) hlen ?_
        · show (s.t1.swapAdj 0).flip p = _
          rw [hi.t1, swap_round h hn hs hc, flip_next e]; rfl
        · show (s.t2.swapAdj 0).flip p = _
          rw [hi.t2, swap_round (tt := tt.not) (TT.wf_not _) hn hs hc, flip_next e]; rfl
        · intro i' j' h'
          refine hi.minimal i' j' ?_
          simp only [List.length_nil, Nat.not_lt_zero, and_false, or_false] at h'
          omega)
    rw [List.length_append] at key
    exact key

theorem canon_inv {swaps flips : List Nat} {tt : TT} (h : tt.WF) (hn : 2 ≤ tt.n) (hs : ∀ p ∈ swaps, p + 1 < tt.n)
    (hc : Cyclic tt.n swaps) :
    Inv swaps flips tt swaps.length flips.length (flipLoop swaps flips 0 (swapLoop swaps 0 0
      ⟨tt, tt.not, minTT tt tt.not, decide (minTT tt tt.not = tt.not), 0, 0⟩)) := by
  refine flipLoop_inv h hn hs hc flips [] _ (by simp) ?_
  refine swapLoop_inv (Nat.zero_le _) swaps [] _ (by simp) ?_
  refine ⟨by simp [tab, swapsTT, flipsTT], by simp [tab, swapsTT, flipsTT], ?_, Nat.zero_le _, Nat.zero_le _, ?_⟩
  · simp only [tab, swapsTT, flipsTT, List.take_zero, List.foldl_nil]
    by_cases h : minTT tt tt.not = tt.not
    · simp [h]
    · rw [if_neg (by simpa using h)]
      exact (minTT_cases _ _).resolve_right h
  · intro i' j' h'
    simp only [List.length_nil, Nat.not_lt_zero, false_and, Nat.le_zero, false_or] at h'
    obtain ⟨rfl, rfl⟩ := h'
    simp only [tab, swapsTT, flipsTT, List.take_zero, List.foldl_nil]
    exact num_minTT _ _

theorem swapAt_get {l : List Nat} {p : Nat} (h : p + 1 < l.length) (k : Nat) :
    (swapAt l p)[k]? = l[sw p (p + 1) k]? := by
  unfold swapAt
  rw [List.getElem?_eq_getElem (show p < l.length by omega), List.getElem?_eq_getElem h]
  dsimp only
  unfold sw
  by_cases h1 : k = p
  · subst h1
    rw [if_pos rfl, List.getElem?_set_ne (by omega), List.getElem?_set_self (by omega), List.getElem?_eq_getElem h]
  · rw [if_neg h1]
    by_cases h2 : k = p + 1
    · subst h2
      rw [if_pos rfl, List.getElem?_set_self (by simpa using h), List.getElem?_eq_getElem (show p < l.length by omega)]
    · rw [if_neg h2, List.getElem?_set_ne (by omega), List.getElem?_set_ne (by omega)]

@[simp] theorem swapAt_length (l : List Nat) (p : Nat) : (swapAt l p).length = l.length := by
  unfold swapAt; split <;> simp

theorem foldl_swapAt {n : Nat} : ∀ (l : List Nat) (q : List Nat), (∀ p ∈ l, p + 1 < n) → q.length = n →
    (l.foldl swapAt q).length = n ∧ ∀ k, (l.foldl swapAt q)[k]? = q[bwd l k]? := by
  intro l
  induction l with
  | nil => intro q _ h; exact ⟨h, fun _ => rfl⟩
  | cons p l ih =>
    intro q hl hq
    obtain ⟨h1, h2⟩ := ih (swapAt q p) (fun r hr => hl r (by simp [hr])) (by simpa using hq)
    refine ⟨h1, fun k => ?_⟩
    rw [List.foldl_cons, h2, swapAt_get (by rw [hq]; exact hl p (by simp))]
    rfl

theorem bwd_lt {n : Nat} {l : List Nat} (h : ∀ p ∈ l, p + 1 < n) {k : Nat} (hk : k < n) : bwd l k < n := by
  induction l with
  | nil => exact hk
  | cons p l ih =>
    have := ih (fun q hq => h q (by simp [hq]))
    have := h p (by simp)
    exact TT.sw_lt (by omega) this (by assumption)

theorem fwd_lt {n : Nat} {l : List Nat} (h : ∀ p ∈ l, p + 1 < n) {k : Nat} (hk : k < n) : fwd l k < n := by
  induction l generalizing k with
  | nil => exact hk
  | cons p l ih =>
    have := h p (by simp)
    exact ih (fun q hq => h q (by simp [hq])) (TT.sw_lt (by omega) this hk)

/-- what the configuration means: the input `i` of the representative is input `perm[i]` of the function, negated
if that bit is set in `phase`; the output is negated if bit `n` is set. -/
structure Config (tt r : TT) (phase : Nat) (perm : List Nat) : Prop where
  wf : r.WF
  n : r.n = tt.n
  length : perm.length = tt.n
  isPerm : perm.Perm (List.range tt.n)
  eval : ∀ x y : Nat → Bool, (∀ i p, perm[i]? = some p → y i = Bool.xor (x p) (phase.testBit p)) →
    tt.eval x = Bool.xor (r.eval y) (phase.testBit tt.n)

theorem mask_high {n : Nat} {l : List Nat} (h : ∀ p ∈ l, p < n) {k : Nat} (hk : n ≤ k) : (mask 0 l).testBit k = false := by
  induction l with
  | nil => simp [mask]
  | cons p l ih =>
    rw [show mask 0 (p :: l) = mask (0 ^^^ (1 <<< p)) l from rfl, testBit_mask, Nat.testBit_xor, testBit_one_shl,
      ih (fun q hq => h q (by simp [hq]))]
    have := h p (by simp)
    have : k ≠ p := by omega
    simp [this]

theorem canonWith_config {swaps flips : List Nat} {tt : TT} (h : tt.WF) (hn : 2 ≤ tt.n) (hs : ∀ p ∈ swaps, p + 1 < tt.n)
    (hf : ∀ p ∈ flips, p < tt.n) (hc : Cyclic tt.n swaps) :
    Config tt (canonWith swaps flips tt).1 (canonWith swaps flips tt).2.1 (canonWith swaps flips tt).2.2 := by
  have hi := canon_inv (flips := flips) h hn hs hc
  unfold canonWith
  dsimp only
  generalize flipLoop swaps flips 0 (swapLoop swaps 0 0
    ⟨tt, tt.not, minTT tt tt.not, decide (minTT tt tt.not = tt.not), 0, 0⟩) = s at hi ⊢
  have hs' : ∀ p ∈ swaps.take s.bs, p + 1 < tt.n := fun p hp => hs p (List.mem_of_mem_take hp)
  have hf' : ∀ p ∈ flips.take s.bf, p < tt.n := fun p hp => hf p (List.mem_of_mem_take hp)
  obtain ⟨l1, l2⟩ := foldl_swapAt (n := tt.n) (swaps.take s.bs) (List.range tt.n) hs' (by simp)
  have hget : ∀ k, k < tt.n → ((swaps.take s.bs).foldl swapAt (List.range tt.n))[k]? = some (bwd (swaps.take s.bs) k) := by
    intro k hk
    rw [l2, List.getElem?_range (bwd_lt hs' hk)]
  have hwf0 : (if s.invo then tt.not else tt).WF := by split <;> [exact TT.wf_not _; exact h]
  have hn0 : (if s.invo then tt.not else tt).n = tt.n := by split <;> rfl
  refine ⟨?_, ?_, l1, ?_, ?_⟩
  · rw [hi.best]; exact wf_swapsTT (wf_flipsTT hwf0 _) _
  · rw [hi.best, tab, n_swapsTT, n_flipsTT, hn0]
  · have hnd : ((swaps.take s.bs).foldl swapAt (List.range tt.n)).Nodup := by
      rw [List.nodup_iff_injective_getElem]
      intro a b e
      have ha : a.val < tt.n := by have := a.isLt; omega
      have hb : b.val < tt.n := by have := b.isLt; omega
      have h1 := hget a ha
      have h2 := hget b hb
      rw [List.getElem?_eq_getElem a.isLt, Option.some.injEq] at h1
      rw [List.getElem?_eq_getElem b.isLt, Option.some.injEq] at h2
      have e' : bwd (swaps.take s.bs) a = bwd (swaps.take s.bs) b := by rw [← h1, ← h2]; exact e
      have := congrArg (fwd (swaps.take s.bs)) e'
      rw [fwd_bwd, fwd_bwd] at this
      exact Fin.ext this
    refine (hnd.subperm ?_).perm_of_length_le (by simp [l1])
    intro p hp
    obtain ⟨k, hk⟩ := List.getElem?_of_mem hp
    have hkl : k < tt.n := by rw [← l1]; exact (List.getElem?_eq_some_iff.1 hk).1
    rw [hget k hkl, Option.some.injEq] at hk
    rw [List.mem_range, ← hk]
    exact bwd_lt hs' hkl
  · intro x y hy
    have hph : ∀ k, (mask (if s.invo then 1 <<< tt.n else 0) (flips.take s.bf)).testBit k =
        Bool.xor (decide (k = tt.n) && s.invo) ((mask 0 (flips.take s.bf)).testBit k) := by
      intro k
      rw [testBit_mask]
      congr 1
      cases s.invo
      · simp
      · rw [if_pos rfl, testBit_one_shl, Bool.and_true]
    rw [hi.best, tab, eval_swapsTT (by simpa [hn0] using hs'), eval_flipsTT, hph]
    rw [mask_high hf' (Nat.le_refl _)]
    have e : ∀ k, k < tt.n → Bool.xor (y (fwd (swaps.take s.bs) k)) ((mask 0 (flips.take s.bf)).testBit k) = x k := by
      intro k hk
      have := hy _ _ (hget _ (fwd_lt hs' hk))
      rw [bwd_fwd, hph] at this
      rw [this]
      have : k ≠ tt.n := by omega
      simp [this]
    have e2 : (if s.invo = true then tt.not else tt).eval (fun k => Bool.xor (y (fwd (swaps.take s.bs) k))
        ((mask 0 (flips.take s.bf)).testBit k)) = Bool.xor (tt.eval x) s.invo := by
      rw [TT.eval_congr (y := x) (by rw [hn0]; exact e)]
      cases s.invo <;> simp
    rw [e2]
    simp

/-! ### The word level computes the same -/

theorem force_eq {α : Type} (a : Nat) (k : Nat → α) : force a k = k a := by cases a <;> rfl

theorem StW.force_eq {α : Type} (s : StW) (k : StW → α) : s.force k = k s := by
  obtain ⟨t1, t2, tmin, invo, bs, bf⟩ := s
  unfold StW.force
  cases invo <;> simp [Npn.force_eq]

theorem num_testBits : ∀ (n a : Nat), TT.num ((List.range n).map a.testBit) = a % 2 ^ n := by
  intro n
  induction n with
  | zero => intro a; simp [TT.num, Nat.mod_one]
  | succ n ih =>
    intro a
    rw [List.range_succ_eq_map, List.map_cons, List.map_map, TT.num]
    have : (a.testBit ∘ Nat.succ) = (a / 2).testBit := by
      funext k
      simp [Nat.testBit_succ]
    rw [this, ih, Nat.testBit_zero, Nat.pow_succ, Nat.mul_comm (2 ^ n) 2, Nat.mod_mul]
    rcases Nat.mod_two_eq_zero_or_one a with h | h <;> simp [h]

theorem num_wordTT {a : Nat} (h : a < 65536) : TT.num (wordTT a).bits = a := by
  show TT.num ((List.range (2 ^ 4)).map a.testBit) = a
  rw [num_testBits]
  exact Nat.mod_eq_of_lt h

theorem num_lt (l : List Bool) : TT.num l < 2 ^ l.length := by
  induction l with
  | nil => simp [TT.num]
  | cons b l ih =>
    rw [TT.num, List.length_cons, Nat.pow_succ]
    split <;> omega

theorem wordTT_num {tt : TT} (h : tt.WF) (hn : tt.n = 4) : wordTT (TT.num tt.bits) = tt := by
  have hl : tt.bits.length = 16 := by rw [h, hn]; rfl
  have hlt := num_lt tt.bits
  rw [hl] at hlt
  obtain ⟨n, bits⟩ := tt
  obtain rfl : n = 4 := hn
  show (⟨4, _⟩ : TT) = ⟨4, bits⟩
  congr 1
  refine TT.num_inj (by simpa using hl.symm) ?_
  rw [num_testBits]
  exact Nat.mod_eq_of_lt hlt

theorem wordTT_inj {a b : Nat} (ha : a < 65536) (hb : b < 65536) : wordTT a = wordTT b ↔ a = b :=
  ⟨fun h => by rw [← num_wordTT ha, ← num_wordTT hb, h], fun h => by rw [h]⟩

theorem ofFn_congr {n : Nat} {f g : Nat → Bool} (h : ∀ p, p < 2 ^ n → f p = g p) : TT.ofFn n f = TT.ofFn n g := by
  unfold TT.ofFn
  congr 1
  exact List.map_congr_left fun p hp => h p (List.mem_range.1 hp)

theorem swapW_lt {p a : Nat} (hp : p < 3) (ha : a < 65536) : swapW p a < 65536 := by
  have key : ∀ m0 m1 m2 s : Nat, m0 < 65536 → m1 * 2 ^ s < 65536 → 
      ((a &&& m0) ||| ((a &&& m1) <<< s) ||| ((a &&& m2) >>> s)) < 2 ^ 16 := by
    intro m0 m1 m2 s h0 h1
    refine Nat.or_lt_two_pow (Nat.or_lt_two_pow ?_ ?_) ?_
    · exact Nat.lt_of_le_of_lt Nat.and_le_left ha
    · rw [Nat.shiftLeft_eq]
      exact Nat.lt_of_le_of_lt (Nat.mul_le_mul_right _ Nat.and_le_right) h1
    · rw [Nat.shiftRight_eq_div_pow]
      exact Nat.lt_of_le_of_lt (Nat.div_le_self _ _) (Nat.lt_of_le_of_lt Nat.and_le_left ha)
  interval_cases p <;> exact key _ _ _ _ (by decide) (by decide)

theorem flipW_lt {i a : Nat} (hi : i < 4) (ha : a < 65536) : flipW i a < 65536 := by
  have key : ∀ m s : Nat, m < 65536 → (((a <<< s) &&& m) ||| ((a &&& m) >>> s)) < 2 ^ 16 := by
    intro m s h0
    refine Nat.or_lt_two_pow ?_ ?_
    · exact Nat.lt_of_le_of_lt Nat.and_le_right h0
    · rw [Nat.shiftRight_eq_div_pow]
      exact Nat.lt_of_le_of_lt (Nat.div_le_self _ _) (Nat.lt_of_le_of_lt Nat.and_le_left ha)
  interval_cases i <;> exact key _ _ (by decide)

theorem notW_lt {a : Nat} (ha : a < 65536) : notW a < 65536 := Nat.xor_lt_two_pow (n := 16) ha (by decide)

theorem get_wordTT {a p : Nat} (h : p < 16) : (wordTT a).get p = a.testBit p := TT.get_ofFn _ h

theorem swapW_eq {p a : Nat} (hp : p < 3) : wordTT (swapW p a) = (wordTT a).swapAdj p := by
  refine ofFn_congr fun q hq => ?_
  refine Eq.trans ?_ (get_wordTT (TT.pos_lt _ 4)).symm
  show (swapW p a).testBit q = a.testBit (TT.pos (fun k => q.testBit (sw p (p + 1) k)) 4)
  change q < 16 at hq
  have key : ∀ m0 m1 m2 s : Nat, ((a &&& m0) ||| ((a &&& m1) <<< s) ||| ((a &&& m2) >>> s)).testBit q =
      ((a.testBit q && m0.testBit q) || (decide (q ≥ s) && (a.testBit (q - s) && m1.testBit (q - s))) ||
        (a.testBit (s + q) && m2.testBit (s + q))) := by
    intro m0 m1 m2 s
    simp only [Nat.testBit_or, Nat.testBit_and, Nat.testBit_shiftLeft, Nat.testBit_shiftRight]
  unfold swapW
  rw [key]
  interval_cases p <;> interval_cases q <;> simp [swapMasks, TT.pos, sw, Nat.testBit]

theorem flipW_eq {i a : Nat} (hi : i < 4) : wordTT (flipW i a) = (wordTT a).flip i := by
  refine ofFn_congr fun q hq => ?_
  refine Eq.trans ?_ (get_wordTT (TT.pos_lt _ 4)).symm
  change q < 16 at hq
  show (flipW i a).testBit q = a.testBit (TT.pos (TT.upd q.testBit i (!q.testBit i)) 4)
  have key : ∀ m s : Nat, (((a <<< s) &&& m) ||| ((a &&& m) >>> s)).testBit q =
      (((decide (q ≥ s) && a.testBit (q - s)) && m.testBit q) || (a.testBit (s + q) && m.testBit (s + q))) := by
    intro m s
    simp only [Nat.testBit_or, Nat.testBit_and, Nat.testBit_shiftLeft, Nat.testBit_shiftRight]
  unfold flipW
  rw [key]
  interval_cases i <;> interval_cases q <;> simp [projW, TT.pos, TT.upd, Nat.testBit]

theorem notW_eq (a : Nat) : wordTT (notW a) = (wordTT a).not := by
  refine ofFn_congr fun q hq => ?_
  rw [get_wordTT hq]
  show (a ^^^ 0xffff).testBit q = !a.testBit q
  rw [Nat.testBit_xor, show (0xffff : Nat) = 2 ^ 16 - 1 from rfl, Nat.testBit_two_pow_sub_one]
  change q < 16 at hq
  simp [hq]

theorem less_wordTT {a b : Nat} (ha : a < 65536) (hb : b < 65536) : (wordTT a).less (wordTT b) = decide (a < b) := by
  unfold TT.less
  rw [num_wordTT ha, num_wordTT hb]

theorem minW_eq {a b : Nat} (ha : a < 65536) (hb : b < 65536) : minTT (wordTT a) (wordTT b) = wordTT (minW a b) := by
  unfold minTT minW
  rw [less_wordTT hb ha]
  by_cases h : b < a <;> simp [h]

theorem minW_lt {a b : Nat} (ha : a < 65536) (hb : b < 65536) : minW a b < 65536 := by
  unfold minW; split <;> assumption

/-- the words of a state are tables -/
def StW.Ok (s : StW) : Prop := s.t1 < 65536 ∧ s.t2 < 65536 ∧ s.tmin < 65536

/-- the state a word state stands for -/
def StW.up (s : StW) : St := ⟨wordTT s.t1, wordTT s.t2, wordTT s.tmin, s.invo, s.bs, s.bf⟩

theorem updW_up {s : StW} (h : s.Ok) (i j : Nat) : (updW i j s).Ok ∧ (updW i j s).up = upd i j s.up := by
  obtain ⟨h1, h2, h3⟩ := h
  unfold updW upd
  have hc : ((wordTT s.t1).less (wordTT s.tmin) || (wordTT s.t2).less (wordTT s.tmin)) = decide (s.t1 < s.tmin ∨ s.t2 < s.tmin) := by
    rw [less_wordTT h1 h3, less_wordTT h2 h3, Bool.decide_or]
  show (_ ∧ _ = if ((wordTT s.t1).less (wordTT s.tmin) || (wordTT s.t2).less (wordTT s.tmin)) = true then _ else _)
  rw [hc]
  by_cases hlt : s.t1 < s.tmin ∨ s.t2 < s.tmin
  · rw [if_pos hlt, if_pos (by simpa using hlt)]
    refine ⟨⟨h1, h2, minW_lt h1 h2⟩, ?_⟩
    simp only [StW.up, minW_eq h1 h2, wordTT_inj (minW_lt h1 h2) h2]
  · rw [if_neg hlt, if_neg (by simpa using hlt)]
    exact ⟨⟨h1, h2, h3⟩, rfl⟩

theorem swapLoopW_up : ∀ (l : List Nat), (∀ p ∈ l, p < 3) → ∀ (i j : Nat) (s : StW), s.Ok →
    (swapLoopW l i j s).Ok ∧ (swapLoopW l i j s).up = swapLoop l i j s.up := by
  intro l
  induction l with
  | nil => intro _ i j s h; exact ⟨h, rfl⟩
  | cons p l ih =>
    intro hl i j s h
    have hp := hl p (by simp)
    rw [swapLoopW, StW.force_eq, swapLoop]
    obtain ⟨o1, o2⟩ := updW_up (s := { s with t1 := swapW p s.t1, t2 := swapW p s.t2 })
      ⟨swapW_lt hp h.1, swapW_lt hp h.2.1, h.2.2⟩ (i + 1) j
    obtain ⟨k1, k2⟩ := ih (fun q hq => hl q (by simp [hq])) (i + 1) j _ o1
    refine ⟨k1, k2.trans ?_⟩
    rw [o2]
    simp only [StW.up, swapW_eq hp]

theorem flipLoopW_up {swaps : List Nat} (hs : ∀ p ∈ swaps, p < 3) : ∀ (l : List Nat), (∀ p ∈ l, p < 4) →
    ∀ (j : Nat) (s : StW), s.Ok → (flipLoopW swaps l j s).Ok ∧ (flipLoopW swaps l j s).up = flipLoop swaps l j s.up := by
  intro l
  induction l with
  | nil => intro _ j s h; exact ⟨h, rfl⟩
  | cons p l ih =>
    intro hl j s h
    have hp := hl p (by simp)
    rw [flipLoopW, StW.force_eq, flipLoop]
    obtain ⟨o1, o2⟩ := updW_up (s := { s with t1 := flipW p (swapW 0 s.t1), t2 := flipW p (swapW 0 s.t2) })
      ⟨flipW_lt hp (swapW_lt (by decide) h.1), flipW_lt hp (swapW_lt (by decide) h.2.1), h.2.2⟩ 0 (j + 1)
    obtain ⟨p1, p2⟩ := swapLoopW_up swaps hs 0 (j + 1) _ o1
    obtain ⟨k1, k2⟩ := ih (fun q hq => hl q (by simp [hq])) (j + 1) _ p1
    refine ⟨k1, k2.trans ?_⟩
    rw [p2, o2]
    simp only [StW.up, flipW_eq hp, swapW_eq (show 0 < 3 by decide)]

theorem canonW_up {swaps flips : List Nat} (hs : ∀ p ∈ swaps, p < 3) (hf : ∀ p ∈ flips, p < 4) {a : Nat} (h : a < 65536) :
    (flipLoopW swaps flips 0 (swapLoopW swaps 0 0 ⟨a, notW a, minW a (notW a), decide (minW a (notW a) = notW a), 0, 0⟩)).up =
      flipLoop swaps flips 0 (swapLoop swaps 0 0 ⟨wordTT a, (wordTT a).not, minTT (wordTT a) (wordTT a).not,
        decide (minTT (wordTT a) (wordTT a).not = (wordTT a).not), 0, 0⟩) := by
  have hn := notW_lt h
  have hm := minW_lt h hn
  obtain ⟨o1, o2⟩ := swapLoopW_up swaps hs 0 0 ⟨a, notW a, minW a (notW a), decide (minW a (notW a) = notW a), 0, 0⟩ ⟨h, hn, hm⟩
  rw [(flipLoopW_up hs flips hf 0 _ o1).2, o2]
  simp only [StW.up, ← notW_eq, minW_eq h hn, wordTT_inj hm hn]

theorem canon_eq {tt : TT} (h : tt.WF) (hn : tt.n = 4) : canon tt = canonWith swaps4 flips4 tt := by
  have hlt := num_lt tt.bits
  rw [h, hn] at hlt
  have e := canonW_up (swaps := swaps4) (flips := flips4) (by decide) (by decide) (a := TT.num tt.bits) hlt
  rw [wordTT_num h hn] at e
  unfold canon canonW canonWith
  simp only [Npn.force_eq]
  rw [← e, hn]
  rfl

theorem canon_config {tt : TT} (h : tt.WF) (hn : tt.n = 4) :
    Config tt (canon tt).1 (canon tt).2.1 (canon tt).2.2 := by
  rw [canon_eq h hn]
  refine canonWith_config h (by omega) ?_ ?_ ?_
  · rw [hn]; decide
  · rw [hn]; decide
  · rw [hn]; unfold Cyclic; decide

theorem canonWith_minimal {swaps flips : List Nat} {tt : TT} (h : tt.WF) (hn : 2 ≤ tt.n)
    (hs : ∀ p ∈ swaps, p + 1 < tt.n) (hc : Cyclic tt.n swaps) (i j : Nat) (hi : i ≤ swaps.length) (hj : j ≤ flips.length) :
    TT.num (canonWith swaps flips tt).1.bits ≤ TT.num (tab swaps flips tt i j).bits ∧
      TT.num (canonWith swaps flips tt).1.bits ≤ TT.num (tab swaps flips tt.not i j).bits :=
  (canon_inv (flips := flips) h hn hs hc).minimal i j (by omega)

/-- the representative is not above any table that is visited -/
theorem canon_minimal {tt : TT} (h : tt.WF) (hn : tt.n = 4) (i j : Nat) (hi : i ≤ 23) (hj : j ≤ 15) :
    TT.num (canon tt).1.bits ≤ TT.num (tab swaps4 flips4 tt i j).bits ∧
      TT.num (canon tt).1.bits ≤ TT.num (tab swaps4 flips4 tt.not i j).bits := by
  rw [canon_eq h hn]
  refine canonWith_minimal h (by omega) ?_ ?_ i j hi hj
  · rw [hn]; decide
  · rw [hn]; unfold Cyclic; decide

end Verif.Npn
