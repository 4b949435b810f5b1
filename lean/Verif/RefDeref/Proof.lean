import Verif.RefDeref.Basic
import Mathlib.Data.Multiset.Basic
import Mathlib.Algebra.Order.Group.Multiset
import Mathlib.Tactic.Linarith

set_option autoImplicit false

/-!
# Referencing is order independent and inverts dereferencing

`Run s v w c`: performing the pending references `s` (a multiset, in any order) takes the values `v` to
`w` at cost `c`.
-/

namespace Verif.RefDeref

variable {p : Param}

theorem Vals.add_comm (v : Vals) (a b : Nat) (d e : BitVec 32) : (v.add a d).add b e = (v.add b e).add a d := by
  funext k; simp only [Vals.add]; split <;> split <;> first | rfl | rw [BitVec.add_assoc, BitVec.add_comm d, ← BitVec.add_assoc]

theorem Vals.add_self (v : Vals) (a : Nat) (d : BitVec 32) : (v.add a d) a = v a + d := by simp [Vals.add]

theorem Vals.add_ne (v : Vals) {a b : Nat} (d : BitVec 32) (h : b ≠ a) : (v.add a d) b = v b := by
  simp [Vals.add, h]

theorem Vals.add_cancel (v : Vals) (a : Nat) (d : BitVec 32) : (v.add a d).add a (-d) = v := by
  funext k; simp only [Vals.add]; split
  · rw [BitVec.add_assoc, ← BitVec.sub_eq_add_neg, BitVec.sub_self, BitVec.add_zero]
  · rfl

theorem Vals.add_cancel' (v : Vals) (a : Nat) : (v.add a (-1)).add a 1 = v := by
  have := Vals.add_cancel v a (-1); rwa [BitVec.neg_neg] at this

/-- what node `m` contributes when its recursion is entered -/
def body (p : Param) (m : Nat) : List Nat := if p.term m then [] else p.kids m
def bcost (p : Param) (m : Nat) : Nat := if p.term m then 0 else p.cost m

/-- pending references caused by incrementing `m` -/
def fire (p : Param) (v : Vals) (m : Nat) : List Nat := if v m = 0 then body p m else []
def fcost (p : Param) (v : Vals) (m : Nat) : Nat := if v m = 0 then bcost p m else 0

inductive Run (p : Param) : Multiset Nat → Vals → Vals → Nat → Prop
  | nil (v) : Run p 0 v v 0
  | step {s m v w c} : Run p (s + (fire p v m : Multiset Nat)) (v.add m 1) w c →
      Run p (m ::ₘ s) v w (fcost p v m + c)

theorem Run.choose {s : Multiset Nat} {v w : Vals} {c : Nat} (h : Run p s v w c) :
    ∀ {m t}, s = m ::ₘ t → ∃ c', Run p (t + (fire p v m : Multiset Nat)) (v.add m 1) w c' ∧
      c = fcost p v m + c' := by
  induction h with
  | nil v => intro m t h; exact absurd h.symm (Multiset.cons_ne_zero)
  | @step s m' v w c hr ih =>
    intro m t he
    by_cases hm : m' = m
    · subst hm
      rw [Multiset.cons_inj_right] at he
      subst he
      exact ⟨c, hr, rfl⟩
    · obtain ⟨_, r, hs, ht⟩ : m' ≠ m ∧ ∃ r, s = m ::ₘ r ∧ t = m' ::ₘ r := by
        rcases Multiset.cons_eq_cons.1 he with ⟨h, _⟩ | ⟨h1, h2⟩
        · exact absurd h hm
        · obtain ⟨r, h2, h3⟩ := h2; exact ⟨hm, r, h2, h3⟩
      subst hs ht
      obtain ⟨c', h1, h2⟩ := ih (m := m) (t := r + (fire p v m' : Multiset Nat)) (by rw [Multiset.cons_add])
      have e1 : fire p (v.add m' 1) m = fire p v m := by
        rw [fire, fire, Vals.add_ne v 1 (Ne.symm hm)]
      have e2 : fire p (v.add m 1) m' = fire p v m' := by
        rw [fire, fire, Vals.add_ne v 1 hm]
      have e3 : fcost p (v.add m' 1) m = fcost p v m := by
        rw [fcost, fcost, Vals.add_ne v 1 (Ne.symm hm)]
      have e4 : fcost p (v.add m 1) m' = fcost p v m' := by
        rw [fcost, fcost, Vals.add_ne v 1 hm]
      rw [e1] at h1
      rw [e3] at h2
      refine ⟨fcost p v m' + c', ?_, by omega⟩
      rw [Multiset.cons_add]
      rw [← e4]
      apply Run.step
      rw [e2, Vals.add_comm, add_right_comm]
      exact h1

theorem Run.det {s : Multiset Nat} {v w : Vals} {c : Nat} (h : Run p s v w c) :
    ∀ {w' c'}, Run p s v w' c' → w = w' ∧ c = c' := by
  induction h with
  | nil v => intro w' c' h; generalize hs : (0 : Multiset Nat) = s at h; cases h with
    | nil => exact ⟨rfl, rfl⟩
    | step _ => exact absurd hs.symm (Multiset.cons_ne_zero)
  | step hr ih =>
    intro w' c' h
    obtain ⟨c'', h1, h2⟩ := h.choose rfl
    obtain ⟨e1, e2⟩ := ih h1
    exact ⟨e1, by omega⟩

theorem Run.append {s : Multiset Nat} {u v : Vals} {c : Nat} (h : Run p s u v c) :
    ∀ {t w d}, Run p t v w d → Run p (s + t) u w (c + d) := by
  induction h with
  | nil v => intro t w d h; simpa using h
  | step hr ih =>
    intro t w d h
    have := ih h
    rw [add_right_comm] at this
    rw [Multiset.cons_add, add_assoc]
    exact .step this

/-- `refKids` performs a run -/
theorem refKids_run {rec : Nat → Vals → Option (Vals × Nat)}
    (hrec : ∀ m v w c, rec m v = some (w, c) → ∃ c', Run p (body p m : Multiset Nat) v w c' ∧ c = bcost p m + c') :
    ∀ (l : List Nat) (v : Vals) (k : Nat) (w : Vals) (c : Nat), refKids rec l v k = some (w, c) →
      ∃ c', Run p (l : Multiset Nat) v w c' ∧ c = k + c' := by
  intro l
  induction l with
  | nil => intro v k w c h; simp only [refKids, Option.some.injEq, Prod.mk.injEq] at h
           obtain ⟨rfl, rfl⟩ := h; exact ⟨0, .nil _, rfl⟩
  | cons m l ih =>
    intro v k w c h
    simp only [refKids] at h
    split at h
    · rename_i hz
      split at h
      · cases h
      · rename_i v' c' hr
        obtain ⟨c1, r1, e1⟩ := hrec _ _ _ _ hr
        obtain ⟨c2, r2, e2⟩ := ih _ _ _ _ h
        refine ⟨fcost p v m + (c1 + c2), ?_, by simp only [fcost, hz, if_true]; omega⟩
        rw [← Multiset.cons_coe]
        apply Run.step
        rw [add_comm (l : Multiset Nat)]
        simp only [fire, hz, if_true]
        exact r1.append r2
    · rename_i hz
      obtain ⟨c2, r2, e2⟩ := ih _ _ _ _ h
      refine ⟨fcost p v m + c2, ?_, by simp only [fcost, hz, if_false]; omega⟩
      rw [← Multiset.cons_coe]
      apply Run.step
      rw [fire, if_neg hz]
      simpa using r2

theorem ref_run : ∀ (f n : Nat) (v w : Vals) (c : Nat), ref p f n v = some (w, c) →
    ∃ c', Run p (body p n : Multiset Nat) v w c' ∧ c = bcost p n + c' := by
  intro f
  induction f with
  | zero => intro n v w c h; simp [ref] at h
  | succ f ih =>
    intro n v w c h
    rw [ref] at h
    split at h
    · rename_i ht
      simp only [Option.some.injEq, Prod.mk.injEq] at h
      obtain ⟨rfl, rfl⟩ := h
      exact ⟨0, by simp [body, ht]; exact .nil _, by simp [bcost, ht]⟩
    · rename_i ht
      obtain ⟨c', h1, h2⟩ := refKids_run ih _ _ _ _ _ h
      exact ⟨c', by simpa [body, ht] using h1, by simp only [bcost, ht]; simpa using h2⟩

/-- the fanin relation is acyclic: there is a rank that decreases along fanins -/
def Acyclic (p : Param) (r : Nat → Nat) : Prop := ∀ n, p.term n = false → ∀ m ∈ p.kids n, r m < r n

theorem body_rank {r : Nat → Nat} (ha : Acyclic p r) {n m : Nat} (h : m ∈ body p n) : r m < r n := by
  unfold body at h
  cases ht : p.term n with
  | true => simp [ht] at h
  | false => simp [ht] at h; exact ha n ht m h

/-- enough fuel: the recursion ends -/
theorem refKids_total {rec : Nat → Vals → Option (Vals × Nat)} {r : Nat → Nat} {k : Nat}
    (hrec : ∀ m v, r m < k → ∃ o, rec m v = some o) : ∀ (l : List Nat) (v : Vals) (c : Nat),
    (∀ m ∈ l, r m < k) → ∃ o, refKids rec l v c = some o := by
  intro l
  induction l with
  | nil => intro v c _; exact ⟨_, rfl⟩
  | cons m l ih =>
    intro v c hl
    simp only [refKids]
    split
    · obtain ⟨o, ho⟩ := hrec m (v.add m 1) (hl m (by simp))
      rw [ho]; exact ih _ _ fun x hx => hl x (by simp [hx])
    · exact ih _ _ fun x hx => hl x (by simp [hx])

theorem derefKids_total {rec : Nat → Vals → Option (Vals × Nat)} {r : Nat → Nat} {k : Nat}
    (hrec : ∀ m v, r m < k → ∃ o, rec m v = some o) : ∀ (l : List Nat) (v : Vals) (c : Nat),
    (∀ m ∈ l, r m < k) → ∃ o, derefKids rec l v c = some o := by
  intro l
  induction l with
  | nil => intro v c _; exact ⟨_, rfl⟩
  | cons m l ih =>
    intro v c hl
    simp only [derefKids]
    split
    · obtain ⟨o, ho⟩ := hrec m (v.add m (-1)) (hl m (by simp))
      rw [ho]; exact ih _ _ fun x hx => hl x (by simp [hx])
    · exact ih _ _ fun x hx => hl x (by simp [hx])

theorem ref_total {r : Nat → Nat} (ha : Acyclic p r) : ∀ (f n : Nat) (v : Vals), r n < f →
    ∃ o, ref p f n v = some o := by
  intro f
  induction f with
  | zero => intro n v h; omega
  | succ f ih =>
    intro n v h
    rw [ref]
    split
    · exact ⟨_, rfl⟩
    · rename_i ht
      exact refKids_total (k := f) ih _ _ _ fun m hm => by
        have := ha n (by simpa using ht) m hm; omega

theorem deref_total {r : Nat → Nat} (ha : Acyclic p r) : ∀ (f n : Nat) (v : Vals), r n < f →
    ∃ o, deref p f n v = some o := by
  intro f
  induction f with
  | zero => intro n v h; omega
  | succ f ih =>
    intro n v h
    rw [deref]
    split
    · exact ⟨_, rfl⟩
    · rename_i ht
      exact derefKids_total (k := f) ih _ _ _ fun m hm => by
        have := ha n (by simpa using ht) m hm; omega

/-- `Un l v w c`: sequential dereferencing of the list `l` (the fanin loops) takes `v` to `w` at cost `c` -/
inductive Un (p : Param) : List Nat → Vals → Vals → Nat → Prop
  | nil (v) : Un p [] v v 0
  | skip {m l v w c} : v.add m (-1) m ≠ 0 → Un p l (v.add m (-1)) w c → Un p (m :: l) v w c
  | go {m l v u w c d} : v.add m (-1) m = 0 → Un p (body p m) (v.add m (-1)) u c → Un p l u w d →
      Un p (m :: l) v w (bcost p m + c + d)

theorem derefKids_un {rec : Nat → Vals → Option (Vals × Nat)}
    (hrec : ∀ m v w c, rec m v = some (w, c) → ∃ c', Un p (body p m) v w c' ∧ c = bcost p m + c') :
    ∀ (l : List Nat) (v : Vals) (k : Nat) (w : Vals) (c : Nat), derefKids rec l v k = some (w, c) →
      ∃ c', Un p l v w c' ∧ c = k + c' := by
  intro l
  induction l with
  | nil => intro v k w c h; simp only [derefKids, Option.some.injEq, Prod.mk.injEq] at h
           obtain ⟨rfl, rfl⟩ := h; exact ⟨0, .nil _, rfl⟩
  | cons m l ih =>
    intro v k w c h
    simp only [derefKids] at h
    split at h
    · rename_i hz
      split at h
      · cases h
      · rename_i v' c' hr
        obtain ⟨c1, r1, e1⟩ := hrec _ _ _ _ hr
        obtain ⟨c2, r2, e2⟩ := ih _ _ _ _ h
        exact ⟨_, .go hz r1 r2, by omega⟩
    · rename_i hz
      obtain ⟨c2, r2, e2⟩ := ih _ _ _ _ h
      exact ⟨_, .skip hz r2, by omega⟩

theorem deref_un : ∀ (f n : Nat) (v w : Vals) (c : Nat), deref p f n v = some (w, c) →
    ∃ c', Un p (body p n) v w c' ∧ c = bcost p n + c' := by
  intro f
  induction f with
  | zero => intro n v w c h; simp [deref] at h
  | succ f ih =>
    intro n v w c h
    rw [deref] at h
    split at h
    · rename_i ht
      simp only [Option.some.injEq, Prod.mk.injEq] at h
      obtain ⟨rfl, rfl⟩ := h
      exact ⟨0, by simp [body, ht]; exact .nil _, by simp [bcost, ht]⟩
    · rename_i ht
      obtain ⟨c', h1, h2⟩ := derefKids_un ih _ _ _ _ _ h
      exact ⟨c', by simpa [body, ht] using h1, by simp only [bcost, ht]; simpa using h2⟩

/-- nodes of rank at least `k` are not touched when everything pending is below `k` -/
theorem Un.untouched {r : Nat → Nat} (ha : Acyclic p r) {l : List Nat} {v w : Vals} {c : Nat}
    (h : Un p l v w c) : ∀ a, (∀ m ∈ l, r m < r a) → w a = v a := by
  induction h with
  | nil v => intro a _; rfl
  | @skip m l v w c hz _ ih =>
    intro a hl
    rw [ih a fun x hx => hl x (by simp [hx])]
    apply Vals.add_ne
    rintro rfl
    exact absurd (hl a (by simp)) (lt_irrefl _)
  | @go m l v u w c d hz _ _ ih1 ih2 =>
    intro a hl
    rw [ih2 a fun x hx => hl x (by simp [hx]), ih1 a fun x hx => by
      have := body_rank ha hx; have := hl m (by simp); omega]
    apply Vals.add_ne
    rintro rfl
    exact absurd (hl a (by simp)) (lt_irrefl _)

/-- a run below `m` does not look at the value of `m` -/
theorem Run.shift {r : Nat → Nat} (ha : Acyclic p r) {m : Nat} {s : Multiset Nat} {a b : Vals} {c : Nat}
    (h : Run p s a b c) : (∀ x ∈ s, r x < r m) → ∀ d, Run p s (a.add m d) (b.add m d) c := by
  induction h with
  | nil v => intro _ d; exact .nil _
  | @step s x v w c hr ih =>
    intro hs d
    have hx : x ≠ m := by
      rintro rfl; exact absurd (hs x (by simp)) (lt_irrefl _)
    have e1 : fire p v x = fire p (v.add m d) x := by rw [fire, fire, Vals.add_ne v d hx]
    have e2 : fcost p v x = fcost p (v.add m d) x := by rw [fcost, fcost, Vals.add_ne v d hx]
    rw [e2]
    apply Run.step
    rw [← e1, Vals.add_comm]
    apply ih
    intro y hy
    rw [Multiset.mem_add] at hy
    rcases hy with hy | hy
    · exact hs y (by simp [hy])
    · unfold fire at hy
      split at hy
      · have := body_rank ha (Multiset.mem_coe.1 hy)
        have := hs x (by simp); omega
      · simp at hy

theorem Run.untouched {r : Nat → Nat} (ha : Acyclic p r) {m : Nat} {s : Multiset Nat} {a b : Vals} {c : Nat}
    (h : Run p s a b c) : (∀ x ∈ s, r x < r m) → b m = a m := by
  induction h with
  | nil v => intro _; rfl
  | @step s x v w c hr ih =>
    intro hs
    have hx : m ≠ x := by
      rintro rfl; exact absurd (hs m (by simp)) (lt_irrefl _)
    rw [ih ?_, Vals.add_ne _ _ hx]
    intro y hy
    rw [Multiset.mem_add] at hy
    rcases hy with hy | hy
    · exact hs y (by simp [hy])
    · unfold fire at hy
      split at hy
      · have := body_rank ha (Multiset.mem_coe.1 hy)
        have := hs x (by simp); omega
      · simp at hy

/-- referencing undoes dereferencing, with the same cost -/
theorem Un.run {r : Nat → Nat} (ha : Acyclic p r) {l : List Nat} {v w : Vals} {c : Nat}
    (h : Un p l v w c) : Run p (l : Multiset Nat) w v c := by
  induction h with
  | nil v => exact .nil _
  | @skip m l v w c hz _ ih =>
    -- w --run l--> v.add m (-1) --m--> v
    have h1 : Run p ({m} : Multiset Nat) (v.add m (-1)) v 0 := by
      have h2 : Run p (m ::ₘ 0) (v.add m (-1)) v (fcost p (v.add m (-1)) m + 0) := by
        apply Run.step
        rw [Vals.add_cancel']
        simp only [fire, hz, if_false]
        exact .nil _
      rw [fcost, if_neg hz] at h2
      exact h2
    have := ih.append h1
    rw [← Multiset.cons_coe, ← Multiset.singleton_add, add_comm]
    exact this
  | @go m l v u w c d hz hb hl ih1 ih2 =>
    -- w --run l--> u --run {m}--> v
    have hu : u m = 0 := by
      rw [hb.untouched ha m fun x hx => body_rank ha hx]; exact hz
    have h1 : Run p (m ::ₘ 0) u v (fcost p u m + c) := by
      apply Run.step
      rw [fire, if_pos hu, zero_add]
      have := ih1.shift ha (m := m) (fun x hx => body_rank ha (Multiset.mem_coe.1 hx)) 1
      rwa [Vals.add_cancel'] at this
    have := ih2.append h1
    rw [fcost, if_pos hu] at this
    rw [← Multiset.cons_coe, ← Multiset.singleton_add, add_comm ({m} : Multiset Nat)]
    have e3 : bcost p m + c + d = d + (bcost p m + c) := by omega
    rw [e3]
    exact this

/-- runs exist -/
theorem Run.exists {r : Nat → Nat} (ha : Acyclic p r) : ∀ (k : Nat) (l : List Nat), (∀ m ∈ l, r m < k) →
    ∀ v, ∃ w c, Run p (l : Multiset Nat) v w c := by
  intro k
  induction k with
  | zero =>
    intro l hl v
    cases l with
    | nil => exact ⟨v, 0, .nil _⟩
    | cons m l => exact absurd (hl m (by simp)) (Nat.not_lt_zero _)
  | succ k ih =>
    intro l
    induction l with
    | nil => intro _ v; exact ⟨v, 0, .nil _⟩
    | cons m l ihl =>
      intro hl v
      obtain ⟨w, c, h1⟩ := ih (fire p v m) (fun x hx => by
        unfold fire at hx
        split at hx
        · have := body_rank ha hx; have := hl m (by simp); omega
        · simp at hx) (v.add m 1)
      obtain ⟨u, d, h2⟩ := ihl (fun x hx => hl x (by simp [hx])) w
      refine ⟨u, fcost p v m + (c + d), ?_⟩
      rw [← Multiset.cons_coe]
      apply Run.step
      rw [add_comm]
      exact h1.append h2

theorem Run.exists' {r : Nat → Nat} (ha : Acyclic p r) (l : List Nat) (v : Vals) :
    ∃ w c, Run p (l : Multiset Nat) v w c :=
  Run.exists ha ((l.map r).sum + 1) l (fun m hm => by
    have : ∀ l : List Nat, m ∈ l → r m ≤ (l.map r).sum := by
      intro l
      induction l with
      | nil => simp
      | cons a l ih =>
        intro h
        rcases List.mem_cons.1 h with rfl | h
        · simp
        · have := ih h; simp; omega
    have := this l hm
    omega) v

/-- dereferencing undoes referencing, with the same cost -/
theorem Un.undo {r : Nat → Nat} (ha : Acyclic p r) {l : List Nat} {w u : Vals} {d : Nat}
    (hu : Un p l w u d) : ∀ {v c}, Run p (l : Multiset Nat) v w c → u = v ∧ d = c := by
  induction hu with
  | nil w =>
    intro v c h
    obtain ⟨e1, e2⟩ := (Run.nil (p := p) v).det (w' := w) (c' := c) h
    exact ⟨e1.symm, e2⟩
  | @skip m l w u d hz hl ih =>
    intro v c h
    obtain ⟨x, c1, h1⟩ := Run.exists' ha l v
    obtain ⟨w', c2, h2⟩ := Run.exists' ha [m] x
    have h3 := h1.append h2
    have e : (l : Multiset Nat) + ([m] : List Nat) = ((m :: l : List Nat) : Multiset Nat) := by
      rw [← Multiset.cons_coe, ← Multiset.singleton_add, add_comm]; rfl
    rw [e] at h3
    obtain ⟨rfl, rfl⟩ := h3.det h
    obtain ⟨c3, h4, e4⟩ := h2.choose (m := m) (t := 0) rfl
    rw [zero_add] at h4
    have hx : x m ≠ 0 := by
      intro hx
      rw [fire, if_pos hx] at h4
      have := h4.untouched ha (m := m) (fun y hy => body_rank ha (Multiset.mem_coe.1 hy))
      rw [Vals.add_self, hx] at this
      apply hz
      rw [Vals.add_self, this]; decide
    rw [fire, if_neg hx] at h4
    obtain ⟨e5, e6⟩ := h4.det (.nil _)
    subst e5
    have := ih (v := v) (c := c1) (by rw [Vals.add_cancel]; exact h1)
    rw [fcost, if_neg hx] at e4
    exact ⟨this.1, by omega⟩
  | @go m l w u' u c d hz hb hl ih1 ih2 =>
    intro v c0 h
    obtain ⟨x, c1, h1⟩ := Run.exists' ha l v
    obtain ⟨w', c2, h2⟩ := Run.exists' ha [m] x
    have h3 := h1.append h2
    have e : (l : Multiset Nat) + ([m] : List Nat) = ((m :: l : List Nat) : Multiset Nat) := by
      rw [← Multiset.cons_coe, ← Multiset.singleton_add, add_comm]; rfl
    rw [e] at h3
    obtain ⟨rfl, rfl⟩ := h3.det h
    obtain ⟨c3, h4, e4⟩ := h2.choose (m := m) (t := 0) rfl
    rw [zero_add] at h4
    by_cases hx : x m = 0
    · rw [fire, if_pos hx] at h4
      have h5 := h4.shift ha (m := m) (fun y hy => body_rank ha (Multiset.mem_coe.1 hy)) (-1)
      rw [Vals.add_cancel] at h5
      obtain ⟨rfl, rfl⟩ := ih1 h5
      obtain ⟨rfl, rfl⟩ := ih2 h1
      rw [fcost, if_pos hx] at e4
      exact ⟨rfl, by omega⟩
    · exfalso
      rw [fire, if_neg hx] at h4
      obtain ⟨e5, _⟩ := h4.det (.nil _)
      subst e5
      apply hx
      rw [Vals.add_cancel] at hz
      exact hz

end Verif.RefDeref
