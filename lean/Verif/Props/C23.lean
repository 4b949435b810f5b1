import Verif.Sop.Divide

set_option autoImplicit false

/-!
# C23: algebraic division identity
-/

namespace Verif.Sop

/-- value of literal `l` under an assignment: literal `2i` is the negated, `2i+1` the plain variable `i` -/
def litVal (x : Nat → Bool) (l : Nat) : Bool := if l % 2 = 1 then x (l / 2) else !x (l / 2)

/-- value of a product: all its literals are true -/
def productVal (x : Nat → Bool) (c : Product) : Bool := (List.range 64).all fun l => !c.getLsbD l || litVal x l

/-- value of a sum of products -/
def val (x : Nat → Bool) (s : Terms) : Bool := s.any (productVal x)

/-- a product over at most 31 variables; bit 63 is reserved by the code (sop_refactoring.hpp 513) -/
def Small (c : Product) : Prop := ∀ l, 62 ≤ l → c.getLsbD l = false

theorem Small.noMark {c : Product} (h : Small c) : NoMark c := h 63 (by omega)

theorem productVal_iff (x : Nat → Bool) (c : Product) :
    productVal x c = true ↔ ∀ l, c.getLsbD l = true → litVal x l = true := by
  unfold productVal
  rw [List.all_eq_true]
  constructor
  · intro h l hl
    have := h l (List.mem_range.2 (lt_of_getLsbD hl))
    rw [hl] at this; simpa using this
  · intro h l _
    cases hl : c.getLsbD l with
    | true => simpa using h l hl
    | false => rfl

theorem Fit.val {q d c : Product} (h : Fit q d c) (x : Nat → Bool) :
    productVal x c = (productVal x d && productVal x q) := by
  rw [Bool.eq_iff_iff, Bool.and_eq_true, productVal_iff, productVal_iff, productVal_iff]
  constructor
  · intro hc
    exact ⟨fun l hl => hc l (by rw [h.mem, hl]; rfl), fun l hl => hc l (by rw [h.mem, hl]; simp)⟩
  · rintro ⟨h1, h2⟩ l hl
    rw [h.mem, Bool.or_eq_true] at hl
    exact hl.elim (h1 l) (h2 l)

theorem Division.val {F G Q R : Terms} (h : Division F G Q R) (x : Nat → Bool) :
    val x F = (val x G && val x Q || val x R) := by
  rw [Bool.eq_iff_iff, Bool.or_eq_true, Bool.and_eq_true]
  simp only [Sop.val, List.any_eq_true]
  constructor
  · rintro ⟨c, hc, hv⟩
    rcases h.cover c hc with hr | ⟨q, hq, d, hd, hf⟩
    · exact .inr ⟨c, hr, hv⟩
    · rw [hf.val, Bool.and_eq_true] at hv
      exact .inl ⟨⟨d, hd, hv.1⟩, ⟨q, hq, hv.2⟩⟩
  · rintro (⟨⟨d, hd, h1⟩, ⟨q, hq, h2⟩⟩ | ⟨c, hc, hv⟩)
    · obtain ⟨c, hc, hf⟩ := h.quot q hq d hd
      exact ⟨c, hc, by rw [hf.val, h1, h2]; rfl⟩
    · exact ⟨c, h.rem.subset hc, hv⟩

/-- C23 for division by a cube, all SOPs and cubes: `F = d * Q + R` for every assignment; no more cubes than before,
and the remainder consists of cubes of `F`. -/
theorem C23_cube (F : Terms) (d : Product) (x : Nat → Bool) :
    let r := divideByCube F d
    val x F = (productVal x d && val x r.1 || val x r.2) ∧ r.1.length + r.2.length ≤ F.length ∧
      r.2.Sublist F := by
  have h := divideByCube_spec F d
  refine ⟨?_, h.count, h.rem⟩
  have := h.val x
  simpa [val] using this

/-- C23 for division by a literal (which drops the remainder): the quotient times the literal is the part of `F`
containing the literal. -/
theorem C23_literal (F : Terms) (l : Nat) (hl : l < 64) (x : Nat → Bool) :
    val x F = (litVal x l && val x (divideByLit F l) || val x (F.filter fun c => !c.getLsbD l)) ∧
      (divideByLit F l).length ≤ F.length := by
  refine ⟨?_, by simpa [divideByLit] using List.length_filter_le _ _⟩
  have hfit : ∀ c : Product, hasLit c l = true → Fit (c &&& ~~~(1#64 <<< l)) (1#64 <<< l) c := by
    intro c hc
    rw [hasLit_eq c hl] at hc
    refine ⟨fun i hi => ?_, rfl⟩
    rw [getLsbD_shift1 l i hl, decide_eq_true_eq] at hi
    subst hi; exact hc
  have h1 : productVal x (1#64 <<< l) = litVal x l := by
    rw [Bool.eq_iff_iff, productVal_iff]
    constructor
    · intro h; exact h l (by rw [getLsbD_shift1 l l hl]; simp)
    · intro h i hi
      rw [getLsbD_shift1 l i hl, decide_eq_true_eq] at hi
      subst hi; exact h
  rw [Bool.eq_iff_iff, Bool.or_eq_true, Bool.and_eq_true]
  simp only [val, List.any_eq_true, divideByLit, List.mem_map, List.mem_filter]
  constructor
  · rintro ⟨c, hc, hv⟩
    cases hb : hasLit c l with
    | true =>
      rw [(hfit c hb).val, Bool.and_eq_true, h1] at hv
      exact .inl ⟨hv.1, _, ⟨c, ⟨hc, hb⟩, rfl⟩, hv.2⟩
    | false =>
      rw [hasLit_eq c hl] at hb
      exact .inr ⟨c, ⟨hc, by rw [hb]; rfl⟩, hv⟩
  · rintro (⟨h2, _, ⟨c, ⟨hc, hb⟩, rfl⟩, h3⟩ | ⟨c, ⟨hc, _⟩, hv⟩)
    · exact ⟨c, hc, by rw [(hfit c hb).val, h1, h2, h3]; rfl⟩
    · exact ⟨c, hc, hv⟩

/-- C23 for division by an SOP: all SOPs over at most 31 variables, all divisors (also empty ones, with
repetitions, or using any of the 64 bits) and all assignments.  The dividend is restored, `F = D * Q + R`, there are
no more cubes than before, and the remainder consists of cubes of `F`. -/
theorem C23_divide (F D : Terms) (hF : ∀ c ∈ F, Small c) (x : Nat → Bool) :
    let r := divide F D
    r.1 = F ∧ val x F = (val x D && val x r.2.1 || val x r.2.2) ∧
      r.2.1.length + r.2.2.length ≤ F.length ∧ r.2.2.Sublist F := by
  obtain ⟨h1, h2⟩ := divide_spec (fun c hc => (hF c hc).noMark) D
  exact ⟨h1, h2.val x, h2.count, h2.rem⟩

/-- The divisor and quotient cubes of a division do not share literals, and each product of them is a cube of `F`
(the division is algebraic). -/
theorem C23_algebraic (F D : Terms) (hF : ∀ c ∈ F, Small c) : ∀ q ∈ (divide F D).2.1, ∀ d ∈ D,
    (d ||| q) ∈ F ∧ d &&& q = 0#64 := by
  obtain ⟨_, h2⟩ := divide_spec (fun c hc => (hF c hc).noMark) D
  intro q hq d hd
  obtain ⟨c, hc, hf⟩ := h2.quot q hq d hd
  obtain ⟨rfl, hd⟩ := fit_iff.1 hf
  refine ⟨hc, ?_⟩
  apply BitVec.eq_of_getLsbD_eq
  intro i _
  rw [BitVec.getLsbD_and]
  cases h : d.getLsbD i with
  | true => simp [hd i h]
  | false => simp

/-- The limit of 31 variables is needed: bit 63, the plain literal of variable 31, is the marker.  Dividing the
single literal by `a + b` loses it. -/
theorem C23_limit : ∃ F D : Terms, ∃ x, val x F ≠ (val x D && val x (divide F D).2.1 || val x (divide F D).2.2) ∧
    (divide F D).1 ≠ F := ⟨[1#64 <<< 63], [2#64, 8#64], fun i => i == 31, by decide +kernel⟩

/-- a concrete division: (ac + ad + bc + bd + e) / (a + b) = c + d, remainder e, with literals 1, 3, 5, 7, 9 -/
example : divide [0b100010#64, 0b10000010#64, 0b101000#64, 0b10001000#64, 0b1000000000#64] [0b10#64, 0b1000#64] =
    ([0b100010#64, 0b10000010#64, 0b101000#64, 0b10001000#64, 0b1000000000#64], [0b100000#64, 0b10000000#64],
      [0b1000000000#64]) := by decide +kernel

/-- these products are over at most 31 variables -/
example : ∀ c ∈ [0b100010#64, 0b10000010#64, 0b101000#64, 0b10001000#64, 0b1000000000#64], Small c := by
  intro c hc l hl
  by_cases h : l < 64
  · have : l = 62 ∨ l = 63 := by omega
    simp only [List.mem_cons, List.not_mem_nil, or_false] at hc
    rcases hc with rfl | rfl | rfl | rfl | rfl <;> rcases this with rfl | rfl <;> decide
  · exact BitVec.getLsbD_of_ge _ _ (by omega)

end Verif.Sop
