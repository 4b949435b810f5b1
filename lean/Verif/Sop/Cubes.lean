import Verif.Sop.Factor

set_option autoImplicit false

/-!
# From cube covers to sums of products: helper lemmas
-/

namespace Verif.Sop
open Aig (GateSpec)

theorem ofCube_succ (n : Nat) (c : Cube) : ofCube (n + 1) c =
    if c.getMask n then ofCube n c ||| (1#64 <<< (2 * n + (c.getBit n).toNat)) else ofCube n c := by
  simp [ofCube, List.range_succ, List.foldl_append]

theorem ofCube_bit (c : Cube) : ∀ (n : Nat), n ≤ 32 → ∀ l, (ofCube n c).getLsbD l =
    (decide (l < 2 * n) && c.getMask (l / 2) && decide (l % 2 = (c.getBit (l / 2)).toNat)) := by
  intro n
  induction n with
  | zero => intro _ l; simp [ofCube]
  | succ n ih =>
    intro hn l
    have hb : (c.getBit n).toNat < 2 := by cases c.getBit n <;> simp
    by_cases hm : c.getMask n = true
    · rw [ofCube_succ, if_pos hm, BitVec.getLsbD_or, ih (by omega), getLsbD_shift1 _ _ (by omega)]
      by_cases hl : l / 2 = n
      · have h1 : ¬ l < 2 * n := by omega
        have h2 : l < 2 * (n + 1) := by omega
        rw [hl, hm]
        simp only [h1, h2, decide_false, decide_true, Bool.false_and, Bool.false_or, Bool.true_and]
        rw [decide_eq_decide]
        omega
      · have h1 : ¬ l = 2 * n + (c.getBit n).toNat := by omega
        have h2 : l < 2 * (n + 1) ↔ l < 2 * n := by omega
        simp only [h1, h2, decide_false, Bool.or_false]
    · rw [ofCube_succ, if_neg hm, ih (by omega)]
      by_cases hl : l / 2 = n
      · rw [hl, show c.getMask n = false by simpa using hm]; simp
      · have h2 : l < 2 * (n + 1) ↔ l < 2 * n := by omega
        simp only [h2]

theorem ofCube_val {n : Nat} (hn : n ≤ 32) {c : Cube} (hc : c.Below n) (x : Nat → Bool) :
    productVal x (ofCube n c) = c.val x := by
  rw [Bool.eq_iff_iff, productVal_iff, Cube.val_iff]
  constructor
  · intro h i hi hm
    have hin : i < n := by
      by_contra hge
      rw [hc i (by omega)] at hm; cases hm
    have hb : (c.getBit i).toNat < 2 := by cases c.getBit i <;> simp
    have := h (2 * i + (c.getBit i).toNat) (by
      rw [ofCube_bit c n hn, show (2 * i + (c.getBit i).toNat) / 2 = i by omega, hm]
      simp; omega)
    unfold litVal at this
    rw [show (2 * i + (c.getBit i).toNat) / 2 = i by omega,
      show (2 * i + (c.getBit i).toNat) % 2 = (c.getBit i).toNat by omega] at this
    cases hv : c.getBit i <;> rw [hv] at this <;> simpa using this
  · intro h l hl
    rw [ofCube_bit c n hn, Bool.and_eq_true, Bool.and_eq_true, decide_eq_true_eq, decide_eq_true_eq] at hl
    obtain ⟨⟨h1, h2⟩, h3⟩ := hl
    have := h (l / 2) (by omega) h2
    unfold litVal
    rw [this, h3]
    cases c.getBit (l / 2) <;> simp

theorem ofCubes_val {n : Nat} (hn : n ≤ 32) {cs : List Cube} (hc : ∀ c ∈ cs, c.Below n) (x : Nat → Bool) :
    val x (ofCubes cs n) = cs.any (·.val x) := by
  unfold val ofCubes
  rw [List.any_map, Bool.eq_iff_iff, List.any_eq_true, List.any_eq_true]
  constructor
  · rintro ⟨c, h1, h2⟩
    exact ⟨c, h1, by rw [← ofCube_val hn (hc c h1)]; exact h2⟩
  · rintro ⟨c, h1, h2⟩
    exact ⟨c, h1, by dsimp only [Function.comp]; rw [ofCube_val hn (hc c h1)]; exact h2⟩

/-- a cover by `isop` of a function that is not constant is fit for factoring -/
theorem ofCubes_good {t : TT} (hn : t.n ≤ 31) {cs : List Cube} (hirr : t.Irredundant cs) (hb : ∀ c ∈ cs, c.Below t.n)
    (hv : ∀ x, cs.any (·.val x) = t.eval x) (h0 : ∃ x, t.eval x = false) (h1 : ∃ x, t.eval x = true) :
    Good (2 * t.n) (ofCubes cs t.n) := by
  have hsub : ∀ c ∈ cs, ∀ d ∈ cs, Sub (ofCube t.n c) (ofCube t.n d) → ∀ x, d.val x = true → c.val x = true := by
    intro c hc d hd hs x hx
    rw [← ofCube_val (by omega) (hb c hc), productVal_iff]
    rw [← ofCube_val (n := t.n) (by omega) (hb d hd), productVal_iff] at hx
    exact fun l hl => hx l (hs l hl)
  have hpos : ∀ (i j : Nat) c d, cs[i]? = some c → cs[j]? = some d → Sub (ofCube t.n c) (ofCube t.n d) → i = j := by
    intro i j c d hc hd hs
    obtain ⟨x, _, hdx, hu⟩ := hirr j d hd
    exact hu i c hc (hsub c (List.mem_of_getElem? hc) d (List.mem_of_getElem? hd) hs x hdx)
  refine ⟨⟨?_, ?_⟩, ?_, ?_, ?_⟩
  · unfold ofCubes
    rw [List.Nodup, List.pairwise_map, List.pairwise_iff_getElem]
    intro i j hi hj hij e
    have := hpos i j _ _ (List.getElem?_eq_getElem hi) (List.getElem?_eq_getElem hj) (e ▸ Sub.refl _)
    omega
  · intro a ha b hb' hs
    obtain ⟨c, hc, rfl⟩ := List.mem_map.1 ha
    obtain ⟨d, hd, rfl⟩ := List.mem_map.1 hb'
    obtain ⟨i, hi⟩ := List.getElem?_of_mem hc
    obtain ⟨j, hj⟩ := List.getElem?_of_mem hd
    have := hpos i j c d hi hj hs
    subst this
    rw [hi] at hj
    cases hj; rfl
  · obtain ⟨x, hx⟩ := h1
    rw [← hv x, List.any_eq_true] at hx
    obtain ⟨c, hc, _⟩ := hx
    exact List.ne_nil_of_mem (List.mem_map.2 ⟨c, hc, rfl⟩)
  · intro p hp e
    obtain ⟨c, hc, rfl⟩ := List.mem_map.1 hp
    obtain ⟨x, hx⟩ := h0
    rw [← hv x, List.any_eq_false] at hx
    apply hx c hc
    rw [← ofCube_val (n := t.n) (by omega) (hb c hc), e, productVal_iff]
    intro l hl
    simp at hl
  · intro p hp l hl
    obtain ⟨c, hc, rfl⟩ := List.mem_map.1 hp
    rw [ofCube_bit c t.n (by omega)]
    have : ¬ l < 2 * t.n := by omega
    simp [this]

theorem ne_const {t : TT} (h : t.WF) (h0 : t.isConst0 ≠ true) : ∃ x, t.eval x = true := by
  by_contra hne
  apply h0
  rw [TT.isConst0_iff h]
  intro x
  by_contra hx
  exact hne ⟨x, by simpa using hx⟩

/-- `get_isop` on a function that is not constant -/
theorem getIsop_spec {t : TT} (h : t.WF) (hn : t.n ≤ 31) (h0 : ∃ x, t.eval x = false) (h1 : ∃ x, t.eval x = true) :
    ∃ cs neg, getIsop t = some (cs, neg) ∧ Good (2 * t.n) (ofCubes cs t.n) ∧
      ∀ x, Bool.xor neg (val x (ofCubes cs t.n)) = t.eval x := by
  obtain ⟨cs, e, hv, hb⟩ := TT.isop_spec t h (by omega)
  have hwn : t.not.WF := TT.wf_not t
  have hnn : t.not.n = t.n := TT.n_not t
  obtain ⟨ns, e', hv', hb'⟩ := TT.isop_spec t.not hwn (by omega)
  have g := ofCubes_good hn (TT.isop_irredundant t h (by omega) e) hb hv h0 h1
  have g' := ofCubes_good (t := t.not) (by omega) (TT.isop_irredundant t.not hwn (by omega) e') hb' hv'
    (by obtain ⟨x, hx⟩ := h1; exact ⟨x, by rw [TT.eval_not, hx]; rfl⟩)
    (by obtain ⟨x, hx⟩ := h0; exact ⟨x, by rw [TT.eval_not, hx]; rfl⟩)
  rw [hnn] at g' hb'
  unfold getIsop
  rw [e]
  dsimp only
  rw [e']
  dsimp only
  have f1 : ∀ x, Bool.xor true (val x (ofCubes ns t.n)) = t.eval x := by
    intro x
    rw [ofCubes_val (by omega) hb', hv', TT.eval_not]; simp
  have f2 : ∀ x, Bool.xor false (val x (ofCubes cs t.n)) = t.eval x := by
    intro x
    rw [ofCubes_val (by omega) hb, hv]; simp
  split
  · exact ⟨_, _, rfl, g', f1⟩
  · split
    · exact ⟨_, _, rfl, g', f1⟩
    · exact ⟨_, _, rfl, g, f2⟩

end Verif.Sop
