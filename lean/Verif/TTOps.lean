import Verif.TT

set_option autoImplicit false

/-!
# More truth table operations (kitty)

Block-level loops of kitty are replaced by their meaning on bit positions, as in `Verif.TT`.
-/

namespace Verif.TT

/-- assignment `x` with variable `i` set to `b` -/
def upd (x : Nat → Bool) (i : Nat) (b : Bool) : Nat → Bool := fun k => if k = i then b else x k

/-- `i` and `j` exchanged -/
def sw (i j k : Nat) : Nat := if k = i then j else if k = j then i else k

/-- `extend_to`, kitty/operations.hpp 771-829: the table is repeated. -/
def extendTo (t : TT) (m : Nat) : TT := ofFn m fun p => t.get (p % 2 ^ t.n)

/-- `shrink_to`, kitty/operations.hpp 840-884: the first bits are kept. -/
def shrinkTo (t : TT) (m : Nat) : TT := ofFn m fun p => t.get p

/-- `swap_inplace`, kitty/operations.hpp 536-597: bit `p` comes from the position with bits `i`, `j`
exchanged. -/
def swap (t : TT) (i j : Nat) : TT := ofFn t.n fun p => t.get (pos (fun k => p.testBit (sw i j k)) t.n)

/-- `has_var`, kitty/operations.hpp: the two cofactors differ somewhere. -/
def hasVar (t : TT) (i : Nat) : Bool :=
  (List.range (2 ^ t.n)).any fun p =>
    Bool.xor (t.get (pos (upd p.testBit i true) t.n)) (t.get (pos (upd p.testBit i false) t.n))

/-- the loop of `expand_inplace`, kitty/operations.hpp 752-760: `swap(i, support[i])` from the last index
down to the first; `i` is the index of the head of the list. -/
def expandFrom (t : TT) : Nat → List Nat → TT
  | _, [] => t
  | i, s :: ss => (expandFrom t (i + 1) ss).swap i s

/-- `expand_inplace`, kitty/operations.hpp 752-760. -/
def expand (t : TT) (support : List Nat) : TT := expandFrom t 0 support

/-- the loop of `min_base_inplace`, kitty/operations.hpp 727-739, for the variables in the list. -/
def minBaseLoop : List Nat → TT → List Nat → TT × List Nat
  | [], t, support => (t, support)
  | i :: is, t, support =>
    if t.hasVar i then
      minBaseLoop is (if support.length < i then t.swap support.length i else t) (support ++ [i])
    else minBaseLoop is t support

/-- `min_base_inplace`, kitty/operations.hpp 721-742. -/
def minBase (t : TT) : TT × List Nat := minBaseLoop (List.range t.n) t []

/-! ### lemmas -/

instance (t : TT) : Decidable t.WF := inferInstanceAs (Decidable (_ = _))

theorem pos_congr {x y : Nat → Bool} {n : Nat} (h : ∀ k, k < n → x k = y k) : pos x n = pos y n := by
  induction n with
  | zero => rfl
  | succ n ih => rw [pos, pos, ih (fun k hk => h k (by omega)), h n (by omega)]

theorem pos_testBit {p n : Nat} (h : p < 2 ^ n) : pos p.testBit n = p := by
  apply Nat.eq_of_testBit_eq
  intro i
  by_cases hi : i < n
  · rw [testBit_pos _ _ _ hi]
  · have h1 : 2 ^ n ≤ 2 ^ i := Nat.pow_le_pow_right (by omega) (by omega)
    rw [Nat.testBit_lt_two_pow (by have := pos_lt p.testBit n; omega), Nat.testBit_lt_two_pow (by omega)]

theorem eval_congr {t : TT} {x y : Nat → Bool} (h : ∀ k, k < t.n → x k = y k) : t.eval x = t.eval y := by
  rw [eval, eval, pos_congr h]

theorem eval_ofFn (n : Nat) (f : Nat → Bool) (x : Nat → Bool) : (ofFn n f).eval x = f (pos x n) := by
  rw [eval, n_ofFn, get_ofFn _ (pos_lt x n)]

theorem eval_ext {t u : TT} (ht : t.WF) (hu : u.WF) (hn : t.n = u.n) (h : ∀ x, t.eval x = u.eval x) : t = u := by
  apply ext ht hu hn
  intro p hp
  have := h p.testBit
  rwa [eval, eval, ← hn, pos_testBit hp] at this

@[simp] theorem eval_const (n : Nat) (b : Bool) (x : Nat → Bool) : (const n b).eval x = b := eval_ofFn _ _ _

theorem eval_nthVar {n i : Nat} (h : i < n) (x : Nat → Bool) : (nthVar n i).eval x = x i := by
  rw [nthVar, eval_ofFn, testBit_pos _ _ _ h]

@[simp] theorem eval_not (t : TT) (x : Nat → Bool) : t.not.eval x = !t.eval x := eval_ofFn _ _ _

theorem eval_and {t u : TT} (h : t.n = u.n) (x : Nat → Bool) : (t.and u).eval x = (t.eval x && u.eval x) := by
  rw [and, eval_ofFn, eval, eval, h]

theorem wf_not (t : TT) : t.not.WF := wf_ofFn _ _
theorem wf_and (t u : TT) : (t.and u).WF := wf_ofFn _ _
theorem wf_const (n : Nat) (b : Bool) : (const n b).WF := wf_ofFn _ _
theorem wf_nthVar (n i : Nat) : (nthVar n i).WF := wf_ofFn _ _

theorem not_not {t : TT} (h : t.WF) : t.not.not = t :=
  eval_ext (wf_not _) h rfl fun x => by simp

@[simp] theorem n_extendTo (t : TT) (m : Nat) : (t.extendTo m).n = m := rfl
@[simp] theorem n_shrinkTo (t : TT) (m : Nat) : (t.shrinkTo m).n = m := rfl
@[simp] theorem n_swap (t : TT) (i j : Nat) : (t.swap i j).n = t.n := rfl

theorem pos_mod (x : Nat → Bool) {n m : Nat} (h : n ≤ m) : pos x m % 2 ^ n = pos x n := by
  induction m with
  | zero => obtain rfl : n = 0 := by omega
            simp [pos]
  | succ m ih =>
    by_cases hm : n = m + 1
    · subst hm; exact Nat.mod_eq_of_lt (pos_lt _ _)
    · rw [pos, ← ih (by omega), Nat.add_mod]
      have : (if x m = true then 2 ^ m else 0) % 2 ^ n = 0 := by
        split
        · exact Nat.mod_eq_zero_of_dvd (Nat.pow_dvd_pow 2 (by omega))
        · simp
      rw [this]; simp

theorem eval_extendTo {t : TT} {m : Nat} (h : t.n ≤ m) (x : Nat → Bool) : (t.extendTo m).eval x = t.eval x := by
  rw [extendTo, eval_ofFn, pos_mod x h, eval]

theorem sw_lt {i j k n : Nat} (hi : i < n) (hj : j < n) (hk : k < n) : sw i j k < n := by
  unfold sw; split
  · exact hj
  · split <;> assumption

theorem eval_swap {t : TT} {i j : Nat} (hi : i < t.n) (hj : j < t.n) (x : Nat → Bool) :
    (t.swap i j).eval x = t.eval fun k => x (sw i j k) := by
  rw [swap, eval_ofFn, eval]
  congr 1
  apply pos_congr
  intro k hk
  rw [testBit_pos _ _ _ (sw_lt hi hj hk)]

theorem eval_shrinkTo {t : TT} {m : Nat} (h : m ≤ t.n) (x : Nat → Bool) :
    (t.shrinkTo m).eval x = t.eval fun k => if k < m then x k else false := by
  rw [shrinkTo, eval_ofFn, eval]
  congr 1
  have : ∀ n, m ≤ n → pos (fun k => if k < m then x k else false) n = pos x m := by
    intro n hn
    induction n with
    | zero => obtain rfl : m = 0 := by omega
              rfl
    | succ n ih =>
      by_cases hm : m = n + 1
      · subst hm; exact pos_congr fun k hk => by simp [hk]
      · rw [pos, ih (by omega)]; simp; omega
  exact (this _ h).symm

theorem hasVar_false {t : TT} {i : Nat} (h : t.hasVar i = false) (x : Nat → Bool) (b : Bool) :
    t.eval (upd x i b) = t.eval x := by
  have key : ∀ x : Nat → Bool, t.eval (upd x i true) = t.eval (upd x i false) := by
    intro x
    rw [hasVar, List.any_eq_false] at h
    have := h (pos x t.n) (List.mem_range.2 (pos_lt _ _))
    have e : ∀ b, pos (upd (pos x t.n).testBit i b) t.n = pos (upd x i b) t.n := by
      intro b; apply pos_congr; intro k hk; unfold upd; split
      · rfl
      · exact testBit_pos _ _ _ hk
    rw [e, e] at this
    rw [eval, eval]
    revert this
    cases t.get (pos (upd x i true) t.n) <;> cases t.get (pos (upd x i false) t.n) <;> simp
  have e2 : x = upd x i (x i) := by funext k; unfold upd; split <;> simp [*]
  have k := key x
  conv_rhs => rw [e2]
  cases b <;> cases x i <;> simp [k]

@[simp] theorem n_expandFrom (t : TT) (i : Nat) (l : List Nat) : (expandFrom t i l).n = t.n := by
  induction l generalizing i with
  | nil => rfl
  | cons s ss ih => rw [expandFrom, n_swap, ih]

@[simp] theorem n_expand (t : TT) (l : List Nat) : (expand t l).n = t.n := n_expandFrom _ _ _

theorem expandFrom_spec (t : TT) : ∀ (l : List Nat) (i : Nat) (x : Nat → Bool), l.Pairwise (· < ·) → (∀ s ∈ l, s < t.n) →
    (∀ s ∈ l, i ≤ s) → i + l.length ≤ t.n →
    ∃ y : Nat → Bool, (expandFrom t i l).eval x = t.eval y ∧ (∀ k, k < i → y k = x k) ∧
      (∀ (k s : Nat), l[k]? = some s → y (i + k) = x s) := by
  intro l
  induction l with
  | nil => intro i x _ _ _ _; exact ⟨x, rfl, fun _ _ => rfl, fun k s h => by simp at h⟩
  | cons s ss ih =>
    intro i x hp hl hi hlen
    have hp' := List.pairwise_cons.1 hp
    rw [List.length_cons] at hlen
    obtain ⟨y, h1, h2, h3⟩ := ih (i + 1) (fun k => x (sw i s k)) hp'.2 (fun z hz => hl z (by simp [hz]))
      (fun z hz => by have := hp'.1 z hz; have := hi s (by simp); omega) (by omega)
    refine ⟨y, ?_, ?_, ?_⟩
    · rw [expandFrom, eval_swap (by rw [n_expandFrom]; omega) (by rw [n_expandFrom]; exact hl s (by simp))]
      exact h1
    · intro k hk
      rw [h2 k (by omega)]
      have := hi s (by simp)
      rw [sw, if_neg (by omega), if_neg (by omega)]
    · intro k z hz
      cases k with
      | zero =>
        simp only [List.getElem?_cons_zero, Option.some.injEq] at hz
        subst hz
        rw [Nat.add_zero, h2 i (by omega), sw, if_pos rfl]
      | succ k =>
        rw [List.getElem?_cons_succ] at hz
        have hm := List.mem_of_getElem? hz
        have := hp'.1 z hm
        have := hi s (by simp)
        rw [show i + (k + 1) = i + 1 + k by omega, h3 k z hz, sw, if_neg (by omega), if_neg (by omega)]

/-- Meaning of expansion: if `support` is strictly increasing and in range and the table only depends on its
first `support.length` variables, variable `support[k]` of the result plays the role of variable `k`. -/
theorem eval_expand {t : TT} {l : List Nat} (x y : Nat → Bool) (hp : l.Pairwise (· < ·)) (hl : ∀ s ∈ l, s < t.n)
    (hlen : l.length ≤ t.n)
    (hd : ∀ u w : Nat → Bool, (∀ k, k < l.length → u k = w k) → t.eval u = t.eval w)
    (hy : ∀ (k s : Nat), l[k]? = some s → y k = x s) : (expand t l).eval x = t.eval y := by
  obtain ⟨z, h1, _, h3⟩ := expandFrom_spec t l 0 x hp hl (fun _ _ => Nat.zero_le _) (by omega)
  rw [expand, h1]
  apply hd
  intro k hk
  have hg : l[k]? = some l[k] := List.getElem?_eq_getElem hk
  have := h3 k _ hg
  rw [Nat.zero_add] at this
  rw [this, hy k _ hg]

theorem minBaseLoop_spec (t0 : TT) : ∀ (m i : Nat) (t : TT) (sup : List Nat), i + m = t0.n → t.n = t0.n →
    sup.length ≤ i → sup.Pairwise (· < ·) → (∀ s ∈ sup, s < i) →
    (∀ x y : Nat → Bool, (∀ (j s : Nat), sup[j]? = some s → y j = x s) → (∀ j, i ≤ j → j < t0.n → y j = x j) →
      t.eval y = t0.eval x) →
    (minBaseLoop (List.range' i m) t sup).1.n = t0.n ∧
    (minBaseLoop (List.range' i m) t sup).2.length ≤ t0.n ∧
    (minBaseLoop (List.range' i m) t sup).2.Pairwise (· < ·) ∧
    (∀ s ∈ (minBaseLoop (List.range' i m) t sup).2, s < t0.n) ∧
    (∀ x y : Nat → Bool, (∀ (j s : Nat), (minBaseLoop (List.range' i m) t sup).2[j]? = some s → y j = x s) →
      (minBaseLoop (List.range' i m) t sup).1.eval y = t0.eval x) := by
  intro m
  induction m with
  | zero =>
    intro i t sup him hn hk hp hs h
    rw [List.range'_zero, minBaseLoop]
    obtain rfl : i = t0.n := by omega
    exact ⟨hn, hk, hp, hs, fun x y hxy => h x y hxy fun j h1 h2 => by omega⟩
  | succ m ih =>
    intro i t sup him hn hk hp hs h
    rw [List.range'_succ, minBaseLoop]
    by_cases hv : t.hasVar i = true
    · rw [if_pos hv]
      refine ih (i + 1) _ _ (by omega) (by split <;> simpa using hn) (by simp; omega) ?_ ?_ ?_
      · rw [List.pairwise_append]
        refine ⟨hp, by simp, ?_⟩
        intro a ha b hb
        rw [List.mem_singleton] at hb
        subst hb; exact hs a ha
      · intro s hs'
        rcases List.mem_append.1 hs' with hs' | hs'
        · have := hs s hs'; omega
        · rw [List.mem_singleton] at hs'; omega
      · intro x y h1 h2
        have hy : ∀ (j s : Nat), sup[j]? = some s → y j = x s := by
          intro j s hj
          refine h1 j s ?_
          rw [List.getElem?_append_left (List.getElem?_eq_some_iff.1 hj).1]; exact hj
        have hyk : y sup.length = x i := h1 sup.length i (by simp)
        by_cases hki : sup.length < i
        · rw [if_pos hki, eval_swap (by omega) (by omega)]
          apply h
          · intro j s hj
            have hjl := (List.getElem?_eq_some_iff.1 hj).1
            show y (sw sup.length i j) = x s
            rw [sw, if_neg (by omega), if_neg (by omega)]
            exact hy j s hj
          · intro j hj hjn
            show y (sw sup.length i j) = x j
            by_cases hji : j = i
            · subst hji
              rw [sw, if_neg (by omega), if_pos rfl, hyk]
            · rw [sw, if_neg (by omega), if_neg hji]
              exact h2 j (by omega) hjn
        · rw [if_neg hki]
          apply h x y hy
          intro j hj hjn
          by_cases hji : j = i
          · subst hji
            rw [← hyk]; congr 1; omega
          · exact h2 j (by omega) hjn
    · have hv' : t.hasVar i = false := by simpa using hv
      rw [if_neg hv]
      refine ih (i + 1) t sup (by omega) hn (by omega) hp (fun s hs' => by have := hs s hs'; omega) ?_
      intro x y h1 h2
      rw [← hasVar_false hv' y (x i)]
      apply h
      · intro j s hj
        have hjl := (List.getElem?_eq_some_iff.1 hj).1
        rw [upd, if_neg (by omega)]; exact h1 j s hj
      · intro j hj hjn
        by_cases hji : j = i
        · subst hji; rw [upd, if_pos rfl]
        · rw [upd, if_neg hji]; exact h2 j (by omega) hjn

/-- Meaning of `min_base_inplace`: variable `j` of the new table plays the role of variable `support[j]`. -/
theorem minBase_spec (t : TT) :
    t.minBase.1.n = t.n ∧ t.minBase.2.length ≤ t.n ∧ t.minBase.2.Pairwise (· < ·) ∧ (∀ s ∈ t.minBase.2, s < t.n) ∧
    (∀ x y : Nat → Bool, (∀ (j s : Nat), t.minBase.2[j]? = some s → y j = x s) → t.minBase.1.eval y = t.eval x) := by
  rw [minBase, List.range_eq_range']
  refine minBaseLoop_spec t t.n 0 t [] (by omega) rfl (by simp) List.Pairwise.nil (by simp) ?_
  intro x y _ h2
  exact eval_congr fun k hk => h2 k (by omega) hk

end Verif.TT
