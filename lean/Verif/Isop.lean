import Verif.TTOps

set_option autoImplicit false

/-!
# Irredundant sums of products

Model of `kitty::cube` (libs/kitty/include/kitty/cube.hpp) and `kitty::isop` (libs/kitty/include/kitty/isop.hpp),
with the proof that the cubes denote the function.
-/

namespace Verif

namespace TT

/-- `is_const0`, kitty/operations.hpp 219-223: all bits are 0. -/
def isConst0 (t : TT) : Bool := t.bits.all (!·)

/-- `cofactor0`, `cofactor1`, kitty/operations.hpp 347-439. -/
def cofactor (t : TT) (i : Nat) (b : Bool) : TT := ofFn t.n fun p => t.get (pos (upd p.testBit i b) t.n)

end TT

/-- `kitty::cube`, cube.hpp 44-292: polarity and care mask. -/
structure Cube where
  bits : BitVec 32
  mask : BitVec 32
deriving DecidableEq, Repr

namespace Cube

/-- the empty cube, cube.hpp 51 -/
def one : Cube := ⟨0#32, 0#32⟩

/-- `get_bit`, cube.hpp 208-211 -/
def getBit (c : Cube) (i : Nat) : Bool := c.bits.getLsbD i

/-- `get_mask`, cube.hpp 214-217 -/
def getMask (c : Cube) (i : Nat) : Bool := c.mask.getLsbD i

/-- `add_literal`, cube.hpp 156-168 with `set_mask`, `set_bit`, `clear_bit`, cube.hpp 220-235 -/
def addLiteral (c : Cube) (i : Nat) (pol : Bool) : Cube :=
  ⟨if pol then c.bits ||| (1#32 <<< i) else c.bits &&& ~~~(1#32 <<< i), c.mask ||| (1#32 <<< i)⟩

/-- the product denoted by a cube (specification) -/
def val (c : Cube) (x : Nat → Bool) : Bool := (List.range 32).all fun i => !c.getMask i || x i == c.getBit i

end Cube

namespace TT

/-- the two terminal cases of `isop_rec`, isop.hpp 50-59 -/
def isopConst (tt dc : TT) (k : Option (TT × List Cube)) : Option (TT × List Cube) :=
  if tt.isConst0 then some (tt, [])
  else if dc.not.isConst0 then some (dc, [Cube.one])
  else k

/-- the branching of `isop_rec` on variable `v`, isop.hpp 76-102; `rec` is the recursive call with the
variables below `v`. Simplification: instead of appending to one vector of cubes, each call returns the cubes it
appends. -/
def isopSplit (rec : TT → TT → Option (TT × List Cube)) (v : Nat) (tt dc : TT) : Option (TT × List Cube) :=
  let tt0 := tt.cofactor v false
  let tt1 := tt.cofactor v true
  let dc0 := dc.cofactor v false
  let dc1 := dc.cofactor v true
  match rec (tt0.and dc1.not) dc0 with
  | none => none
  | some r0 => match rec (tt1.and dc0.not) dc1 with
    | none => none
    | some r1 => match rec ((tt0.and r0.1.not).or (tt1.and r1.1.not)) (dc0.and dc1) with
      | none => none
      | some r2 =>
        some (r2.1.or ((r0.1.and (nthVar tt.n v).not).or (r1.1.and (nthVar tt.n v))),
          r0.2.map (·.addLiteral v false) ++ r1.2.map (·.addLiteral v true) ++ r2.2)

/-- `isop_rec`, isop.hpp 44-108, by recursion on `var_index`: a variable on which neither table depends is
skipped, which is the loop 63-71 (the repeated tests of the terminal cases have the same answers). `none`: no
variable left, excluded by the assertion in line 61. -/
def isopRec : Nat → TT → TT → Option (TT × List Cube)
  | 0, tt, dc => isopConst tt dc none
  | k + 1, tt, dc => isopConst tt dc
      (if tt.hasVar k || dc.hasVar k then isopSplit (isopRec k) k tt dc else isopRec k tt dc)

/-- `isop`, isop.hpp 121-129 -/
def isop (t : TT) : Option (List Cube) := (isopRec t.n t t).map (·.2)

/-! ### proof -/

theorem isConst0_iff {t : TT} (h : t.WF) : t.isConst0 = true ↔ ∀ x, t.eval x = false := by
  rw [isConst0, List.all_eq_true]
  constructor
  · intro hb x
    rw [eval, get, List.getD_eq_getElem?_getD]
    cases hg : t.bits[pos x t.n]? with
    | none => rfl
    | some b => simpa using hb b (List.mem_of_getElem? hg)
  · intro hx b hb
    obtain ⟨p, hp⟩ := List.mem_iff_getElem?.1 hb
    have hlt : p < 2 ^ t.n := by rw [← show t.bits.length = 2 ^ t.n from h]; exact (List.getElem?_eq_some_iff.1 hp).1
    have := hx p.testBit
    rw [eval, pos_testBit hlt, get, List.getD_eq_getElem?_getD, hp] at this
    simpa using this

theorem eval_or {t u : TT} (h : t.n = u.n) (x : Nat → Bool) : (t.or u).eval x = (t.eval x || u.eval x) := by
  rw [or, eval_ofFn, eval, eval, h]

theorem eval_cofactor (t : TT) (i : Nat) (b : Bool) (x : Nat → Bool) : (t.cofactor i b).eval x = t.eval (upd x i b) := by
  rw [cofactor, eval_ofFn, eval]
  congr 1
  apply pos_congr
  intro k hk
  unfold upd
  split
  · rfl
  · exact testBit_pos _ _ _ hk

/-- the table depends only on the variables below `k` -/
def Dep (t : TT) (k : Nat) : Prop := ∀ x y : Nat → Bool, (∀ i, i < k → x i = y i) → t.eval x = t.eval y

theorem dep_self (t : TT) : Dep t t.n := fun _ _ h => eval_congr h

theorem dep_cofactor {t : TT} {k : Nat} (h : Dep t (k + 1)) (b : Bool) : Dep (t.cofactor k b) k := by
  intro x y hxy
  rw [eval_cofactor, eval_cofactor]
  apply h
  intro i hi
  unfold upd
  split
  · rfl
  · exact hxy i (by omega)

theorem dep_skip {t : TT} {k : Nat} (h : Dep t (k + 1)) (hv : t.hasVar k = false) : Dep t k := by
  intro x y hxy
  rw [← hasVar_false hv x true, ← hasVar_false hv y true]
  apply h
  intro i hi
  unfold upd
  split
  · rfl
  · exact hxy i (by omega)

theorem dep_and {t u : TT} {k : Nat} (hn : t.n = u.n) (h : Dep t k) (g : Dep u k) : Dep (t.and u) k := by
  intro x y hxy
  rw [eval_and hn, eval_and hn, h x y hxy, g x y hxy]

theorem dep_or {t u : TT} {k : Nat} (hn : t.n = u.n) (h : Dep t k) (g : Dep u k) : Dep (t.or u) k := by
  intro x y hxy
  rw [eval_or hn, eval_or hn, h x y hxy, g x y hxy]

theorem dep_not {t : TT} {k : Nat} (h : Dep t k) : Dep t.not k := by
  intro x y hxy
  rw [eval_not, eval_not, h x y hxy]

end TT

namespace Cube

/-- the cube has no literal at or above `k` -/
def Below (c : Cube) (k : Nat) : Prop := ∀ i, k ≤ i → c.getMask i = false

theorem shift_bit (i j : Nat) (hi : i < 32) : (1#32 <<< i).getLsbD j = decide (j = i) := by
  rw [BitVec.getLsbD_shiftLeft]
  by_cases h : j = i
  · subst h; simp [hi]
  · by_cases hj : j < i
    · simp [hj, h]
    · have : ¬ j - i = 0 := by omega
      simp [h, this, BitVec.getLsbD_one]

theorem getMask_add (c : Cube) (i : Nat) (pol : Bool) (hi : i < 32) (j : Nat) :
    (c.addLiteral i pol).getMask j = (c.getMask j || decide (j = i)) := by
  rw [addLiteral, getMask, getMask, BitVec.getLsbD_or, shift_bit i j hi]

theorem getBit_add (c : Cube) (i : Nat) (pol : Bool) (hi : i < 32) (j : Nat) (hj : j < 32) :
    (c.addLiteral i pol).getBit j = if j = i then pol else c.getBit j := by
  rw [addLiteral, getBit, getBit]
  cases pol
  · simp only [Bool.false_eq_true, if_false, BitVec.getLsbD_and, BitVec.getLsbD_not, hj, decide_true, Bool.true_and, shift_bit i j hi]
    by_cases h : j = i <;> simp [h]
  · simp only [if_true, BitVec.getLsbD_or, shift_bit i j hi]
    by_cases h : j = i <;> simp [h]

theorem val_one (x : Nat → Bool) : one.val x = true := by
  rw [val, List.all_eq_true]
  intro i _
  simp [getMask, one]

theorem val_iff (c : Cube) (x : Nat → Bool) : c.val x = true ↔ ∀ i, i < 32 → c.getMask i = true → x i = c.getBit i := by
  rw [val, List.all_eq_true]
  constructor
  · intro h i hi hm
    have := h i (List.mem_range.2 hi)
    rw [hm] at this
    simpa using this
  · intro h i hi
    rw [List.mem_range] at hi
    cases hm : c.getMask i with
    | false => rfl
    | true => rw [h i hi hm]; simp

theorem val_add (c : Cube) (i : Nat) (pol : Bool) (hi : i < 32) (hb : c.getMask i = false) (x : Nat → Bool) :
    (c.addLiteral i pol).val x = (c.val x && x i == pol) := by
  rw [Bool.eq_iff_iff, Bool.and_eq_true, val_iff, val_iff, beq_iff_eq]
  constructor
  · intro h
    constructor
    · intro j hj hm
      have := h j hj (by rw [getMask_add c i pol hi, hm]; rfl)
      rw [getBit_add c i pol hi j hj] at this
      have hne : j ≠ i := by rintro rfl; rw [hb] at hm; cases hm
      rw [if_neg hne] at this
      exact this
    · have := h i hi (by rw [getMask_add c i pol hi]; simp)
      rw [getBit_add c i pol hi i hi, if_pos rfl] at this
      exact this
  · rintro ⟨h1, h2⟩ j hj hm
    rw [getBit_add c i pol hi j hj]
    split
    · rename_i e; rw [e]; exact h2
    · rename_i e
      rw [getMask_add c i pol hi] at hm
      simp only [e, decide_false, Bool.or_false] at hm
      exact h1 j hj hm

end Cube

namespace TT

/-- every cube covers a minterm of the function that no other cube covers -/
def Irredundant (t : TT) (cs : List Cube) : Prop :=
  ∀ (i : Nat) c, cs[i]? = some c → ∃ x, t.eval x = true ∧ c.val x = true ∧
    ∀ (j : Nat) d, cs[j]? = some d → d.val x = true → j = i

/-- what a call of `isop_rec` guarantees -/
structure IsopSpec (n k : Nat) (tt dc : TT) (r : TT × List Cube) : Prop where
  n_eq : r.1.n = n
  wf : r.1.WF
  lower : ∀ x, tt.eval x = true → r.1.eval x = true
  upper : ∀ x, r.1.eval x = true → dc.eval x = true
  cubes : ∀ x, r.2.any (·.val x) = r.1.eval x
  dep : Dep r.1 k
  below : ∀ c ∈ r.2, c.Below k
  irr : Irredundant tt r.2

theorem val_upd {c : Cube} {k : Nat} (hc : c.Below k) (x : Nat → Bool) (b : Bool) : c.val (upd x k b) = c.val x := by
  rw [Bool.eq_iff_iff, Cube.val_iff, Cube.val_iff]
  have : ∀ i, c.getMask i = true → upd x k b i = x i := by
    intro i hi
    unfold upd
    split
    · rename_i e; rw [hc i (by omega)] at hi; cases hi
    · rfl
  constructor
  · intro h i hi hm; rw [← this i hm]; exact h i hi hm
  · intro h i hi hm; rw [this i hm]; exact h i hi hm

theorem any_map_add (l : List Cube) (k : Nat) (pol : Bool) (hk : k < 32) (hl : ∀ c ∈ l, c.Below k) (x : Nat → Bool) :
    (l.map (·.addLiteral k pol)).any (·.val x) = (l.any (·.val x) && x k == pol) := by
  induction l with
  | nil => simp
  | cons c l ih =>
    rw [List.map_cons, List.any_cons, List.any_cons, ih fun d hd => hl d (by simp [hd]),
      Cube.val_add c k pol hk (hl c (by simp) k (Nat.le_refl _))]
    cases c.val x <;> cases l.any (·.val x) <;> cases (x k == pol) <;> rfl

theorem isopRec_spec (n : Nat) (h32 : n ≤ 32) : ∀ (k : Nat) (tt dc : TT), k ≤ n → tt.n = n → dc.n = n → tt.WF → dc.WF →
    Dep tt k → Dep dc k → (∀ x, tt.eval x = true → dc.eval x = true) →
    ∃ r, isopRec k tt dc = some r ∧ IsopSpec n k tt dc r := by
  intro k
  have hconst : ∀ (k : Nat) (tt dc : TT) (q : Option (TT × List Cube)), tt.n = n → dc.n = n → tt.WF → dc.WF →
      Dep tt k → Dep dc k → (∀ x, tt.eval x = true → dc.eval x = true) →
      ((∃ x, tt.eval x = true) → (∃ x, dc.eval x = false) → ∃ r, q = some r ∧ IsopSpec n k tt dc r) →
      ∃ r, isopConst tt dc q = some r ∧ IsopSpec n k tt dc r := by
    intro k tt dc q h1 h2 w1 w2 d1 d2 hle hq
    rw [isopConst]
    by_cases c1 : tt.isConst0 = true
    · rw [if_pos c1]
      refine ⟨_, rfl, h1, w1, fun _ h => h, hle, ?_, d1, by simp, fun i c h => by simp at h⟩
      intro x
      rw [(isConst0_iff w1).1 c1 x]; rfl
    · rw [if_neg c1]
      by_cases c2 : dc.not.isConst0 = true
      · rw [if_pos c2]
        have hdc : ∀ x, dc.eval x = true := by
          intro x
          have := (isConst0_iff (wf_not dc)).1 c2 x
          rw [eval_not] at this
          simpa using this
        refine ⟨_, rfl, h2, w2, hle, fun _ h => h, ?_, d2, ?_, ?_⟩
        · intro x
          simp only [List.any_cons, List.any_nil, Cube.val_one, hdc x, Bool.or_false]
        · intro c hc
          rw [List.mem_singleton] at hc
          subst hc
          intro i _
          simp [Cube.getMask, Cube.one]
        · have hx : ∃ x, tt.eval x = true := by
            by_contra hne
            apply c1
            rw [isConst0_iff w1]
            intro x
            by_contra hx
            exact hne ⟨x, by simpa using hx⟩
          obtain ⟨x, hx⟩ := hx
          have h1 : ∀ (j : Nat) d, [Cube.one][j]? = some d → j = 0 ∧ d = Cube.one := by
            intro j d h
            cases j with
            | zero => exact ⟨rfl, by simpa using h.symm⟩
            | succ j => simp at h
          intro i c h
          obtain ⟨rfl, rfl⟩ := h1 i c h
          exact ⟨x, hx, Cube.val_one x, fun j d hd _ => (h1 j d hd).1⟩
      · rw [if_neg c2]
        apply hq
        · by_contra hne
          apply c1
          rw [isConst0_iff w1]
          intro x
          by_contra hx
          exact hne ⟨x, by simpa using hx⟩
        · by_contra hne
          apply c2
          rw [isConst0_iff (wf_not dc)]
          intro x
          rw [eval_not]
          by_contra hx
          exact hne ⟨x, by simpa using hx⟩
  induction k with
  | zero =>
    intro tt dc hk h1 h2 w1 w2 d1 d2 hle
    rw [isopRec]
    apply hconst 0 tt dc none h1 h2 w1 w2 d1 d2 hle
    rintro ⟨x, hx⟩ ⟨y, hy⟩
    exfalso
    have := hle x hx
    rw [d2 x y (fun i hi => by omega), hy] at this
    cases this
  | succ k ih =>
    intro tt dc hk h1 h2 w1 w2 d1 d2 hle
    rw [isopRec]
    apply hconst (k + 1) tt dc _ h1 h2 w1 w2 d1 d2 hle
    intro _ _
    by_cases hv : (tt.hasVar k || dc.hasVar k) = true
    · rw [if_pos hv]
      have hk' : k ≤ n := by omega
      have hk32 : k < 32 := by omega
      have wc : ∀ (t : TT) b, (t.cofactor k b).WF := fun t b => wf_ofFn _ _
      have nc : ∀ (t : TT) b, (t.cofactor k b).n = t.n := fun t b => rfl
      have hle0 : ∀ b x, (tt.cofactor k b).eval x = true → (dc.cofactor k b).eval x = true := by
        intro b x
        rw [eval_cofactor, eval_cofactor]
        exact hle _
      have na : ∀ b b', (tt.cofactor k b).n = ((dc.cofactor k b').not).n := by intro b b'; rw [n_not, nc, nc, h1, h2]
      obtain ⟨r0, e0, s0⟩ := ih ((tt.cofactor k false).and (dc.cofactor k true).not) (dc.cofactor k false) hk'
        (by rw [n_and, nc, h1]) (by rw [nc, h2]) (wf_and _ _) (wc _ _)
        (dep_and (na _ _) (dep_cofactor d1 _) (dep_not (dep_cofactor d2 _))) (dep_cofactor d2 _) (by
          intro x hx
          rw [eval_and (na _ _), Bool.and_eq_true] at hx
          exact hle0 _ _ hx.1)
      obtain ⟨r1, e1, s1⟩ := ih ((tt.cofactor k true).and (dc.cofactor k false).not) (dc.cofactor k true) hk'
        (by rw [n_and, nc, h1]) (by rw [nc, h2]) (wf_and _ _) (wc _ _)
        (dep_and (na _ _) (dep_cofactor d1 _) (dep_not (dep_cofactor d2 _))) (dep_cofactor d2 _) (by
          intro x hx
          rw [eval_and (na _ _), Bool.and_eq_true] at hx
          exact hle0 _ _ hx.1)
      have nr0 : (tt.cofactor k false).n = (r0.1.not).n := by rw [n_not, nc, h1, s0.n_eq]
      have nr1 : (tt.cofactor k true).n = (r1.1.not).n := by rw [n_not, nc, h1, s1.n_eq]
      have nor : ((tt.cofactor k false).and r0.1.not).n = ((tt.cofactor k true).and r1.1.not).n := rfl
      have nd : (dc.cofactor k false).n = (dc.cofactor k true).n := rfl
      obtain ⟨r2, e2, s2⟩ := ih (((tt.cofactor k false).and r0.1.not).or ((tt.cofactor k true).and r1.1.not))
        ((dc.cofactor k false).and (dc.cofactor k true)) hk' (by rw [n_or, n_and, nc, h1]) (by rw [n_and, nc, h2])
        (wf_ofFn _ _) (wf_and _ _)
        (dep_or nor (dep_and nr0 (dep_cofactor d1 _) (dep_not s0.dep)) (dep_and nr1 (dep_cofactor d1 _) (dep_not s1.dep)))
        (dep_and nd (dep_cofactor d2 _) (dep_cofactor d2 _)) (by
          intro x hx
          rw [eval_or nor, eval_and nr0, eval_and nr1, eval_not, eval_not, Bool.or_eq_true, Bool.and_eq_true, Bool.and_eq_true] at hx
          rw [eval_and nd, Bool.and_eq_true]
          rcases hx with ⟨a, b⟩ | ⟨a, b⟩
          · refine ⟨hle0 _ _ a, ?_⟩
            by_contra hc
            have := s0.lower x (by rw [eval_and (na _ _), eval_not, a]; simpa using hc)
            rw [this] at b; cases b
          · refine ⟨?_, hle0 _ _ a⟩
            by_contra hc
            have := s1.lower x (by rw [eval_and (na _ _), eval_not, a]; simpa using hc)
            rw [this] at b; cases b)
      have nv0 : r0.1.n = ((nthVar tt.n k).not).n := by rw [n_not, n_nthVar, s0.n_eq, h1]
      have nv1 : r1.1.n = (nthVar tt.n k).n := by rw [n_nthVar, s1.n_eq, h1]
      have nv2 : (r0.1.and (nthVar tt.n k).not).n = (r1.1.and (nthVar tt.n k)).n := by rw [n_and, n_and, s0.n_eq, s1.n_eq]
      have nv3 : r2.1.n = ((r0.1.and (nthVar tt.n k).not).or (r1.1.and (nthVar tt.n k))).n := by
        rw [n_or, n_and, s2.n_eq, s0.n_eq]
      have hev : ∀ x, (r2.1.or ((r0.1.and (nthVar tt.n k).not).or (r1.1.and (nthVar tt.n k)))).eval x =
          (r2.1.eval x || (r0.1.eval x && !x k || r1.1.eval x && x k)) := by
        intro x
        rw [eval_or nv3, eval_or nv2, eval_and nv0, eval_and nv1, eval_not, eval_nthVar (by omega)]
      have hupd : ∀ x : Nat → Bool, upd x k (x k) = x := by intro x; funext j; unfold upd; split <;> simp [*]
      have hs : isopSplit (isopRec k) k tt dc = some
          (r2.1.or ((r0.1.and (nthVar tt.n k).not).or (r1.1.and (nthVar tt.n k))),
            r0.2.map (·.addLiteral k false) ++ r1.2.map (·.addLiteral k true) ++ r2.2) := by
        simp only [isopSplit, e0, e1, e2]
      refine ⟨_, hs, ?_, wf_ofFn _ _, ?_, ?_, ?_, ?_, ?_, ?_⟩
      · rw [n_or, s2.n_eq]
      · intro x hx
        simp only [hev]
        rw [← hupd x] at hx
        cases hxk : x k with
        | false =>
          rw [hxk, ← eval_cofactor] at hx
          cases hr0 : r0.1.eval x with
          | true => simp
          | false =>
            have := s2.lower x (by rw [eval_or nor, eval_and nr0, eval_not, hx, hr0]; rfl)
            rw [this]; rfl
        | true =>
          rw [hxk, ← eval_cofactor] at hx
          cases hr1 : r1.1.eval x with
          | true => simp
          | false =>
            have := s2.lower x (by rw [eval_or nor, eval_and nr1, eval_not, hx, hr1]; simp)
            rw [this]; rfl
      · intro x hx
        simp only [hev, Bool.or_eq_true, Bool.and_eq_true] at hx
        rw [← hupd x]
        rcases hx with hx | ⟨hx, hk0⟩ | ⟨hx, hk1⟩
        · have := s2.upper x hx
          rw [eval_and nd, Bool.and_eq_true, eval_cofactor, eval_cofactor] at this
          cases x k
          · exact this.1
          · exact this.2
        · have := s0.upper x hx
          rw [eval_cofactor] at this
          have e : x k = false := by simpa using hk0
          rw [e]; exact this
        · have := s1.upper x hx
          rw [eval_cofactor] at this
          rw [hk1]; exact this
      · intro x
        simp only [hev, List.any_append]
        rw [any_map_add _ _ _ hk32 s0.below, any_map_add _ _ _ hk32 s1.below, s0.cubes, s1.cubes, s2.cubes]
        cases r0.1.eval x <;> cases r1.1.eval x <;> cases r2.1.eval x <;> cases x k <;> rfl
      · intro x y hxy
        rw [hev, hev, s0.dep x y (fun i hi => hxy i (by omega)), s1.dep x y (fun i hi => hxy i (by omega)),
          s2.dep x y (fun i hi => hxy i (by omega)), hxy k (by omega)]
      · intro c hc i hi
        simp only [List.mem_append, List.mem_map] at hc
        rcases hc with (⟨c', hc', rfl⟩ | ⟨c', hc', rfl⟩) | hc
        · rw [Cube.getMask_add _ _ _ hk32, s0.below c' hc' i (by omega)]
          have : i ≠ k := by omega
          simp [this]
        · rw [Cube.getMask_add _ _ _ hk32, s1.below c' hc' i (by omega)]
          have : i ≠ k := by omega
          simp [this]
        · exact s2.below c hc i (by omega)
      · -- positions in the three parts
        have hnth : ∀ (j : Nat) d, (r0.2.map (·.addLiteral k false) ++ r1.2.map (·.addLiteral k true) ++ r2.2)[j]? = some d →
            (∃ d', r0.2[j]? = some d' ∧ d = d'.addLiteral k false) ∨
            (r0.2.length ≤ j ∧ ∃ d', r1.2[j - r0.2.length]? = some d' ∧ d = d'.addLiteral k true) ∨
            (r0.2.length + r1.2.length ≤ j ∧ r2.2[j - (r0.2.length + r1.2.length)]? = some d) := by
          intro j d hd
          rw [List.append_assoc] at hd
          by_cases h1 : j < r0.2.length
          · rw [List.getElem?_append_left (by simpa using h1), List.getElem?_map, Option.map_eq_some_iff] at hd
            obtain ⟨d', h2, rfl⟩ := hd
            exact .inl ⟨d', h2, rfl⟩
          · rw [List.getElem?_append_right (by simpa using h1), List.length_map] at hd
            by_cases h2 : j - r0.2.length < r1.2.length
            · rw [List.getElem?_append_left (by simpa using h2), List.getElem?_map, Option.map_eq_some_iff] at hd
              obtain ⟨d', h3, rfl⟩ := hd
              exact .inr (.inl ⟨by omega, d', h3, rfl⟩)
            · rw [List.getElem?_append_right (by simpa using h2), List.length_map] at hd
              exact .inr (.inr ⟨by omega, by rw [show j - (r0.2.length + r1.2.length) = j - r0.2.length - r1.2.length by omega]; exact hd⟩)
        have hself : ∀ (x : Nat → Bool) b, upd x k b k = b := by intro x b; simp [upd]
        have hb0 : ∀ {j : Nat} {d : Cube}, r0.2[j]? = some d → d.Below k := fun h => s0.below _ (List.mem_of_getElem? h)
        have hb1 : ∀ {j : Nat} {d : Cube}, r1.2[j]? = some d → d.Below k := fun h => s1.below _ (List.mem_of_getElem? h)
        have hb2 : ∀ {j : Nat} {d : Cube}, r2.2[j]? = some d → d.Below k := fun h => s2.below _ (List.mem_of_getElem? h)
        have hadd : ∀ {d : Cube} (pol b : Bool) x, d.Below k → (d.addLiteral k pol).val (upd x k b) = (d.val x && b == pol) := by
          intro d pol b x hd
          rw [Cube.val_add d k pol hk32 (hd k (Nat.le_refl _)), val_upd hd, hself]
        have hcov2 : ∀ {j : Nat} {d : Cube} {x}, r2.2[j]? = some d → d.val x = true →
            (dc.cofactor k false).eval x = true ∧ (dc.cofactor k true).eval x = true := by
          intro j d x h1 h2
          have := s2.upper x (by rw [← s2.cubes, List.any_eq_true]; exact ⟨d, List.mem_of_getElem? h1, h2⟩)
          rw [eval_and nd, Bool.and_eq_true] at this
          exact this
        intro i c hc
        rcases hnth i c hc with ⟨c', hc', rfl⟩ | ⟨hi, c', hc', rfl⟩ | ⟨hi, hc'⟩
        · obtain ⟨x, hx, hcx, hu⟩ := s0.irr i c' hc'
          rw [eval_and (na _ _), eval_not, Bool.and_eq_true] at hx
          refine ⟨upd x k false, by rw [← eval_cofactor]; exact hx.1, by rw [hadd _ _ _ (hb0 hc'), hcx]; rfl, ?_⟩
          intro j d hd hdx
          rcases hnth j d hd with ⟨d', hd', rfl⟩ | ⟨hj, d', hd', rfl⟩ | ⟨hj, hd'⟩
          · rw [hadd _ _ _ (hb0 hd'), Bool.and_eq_true] at hdx
            exact hu j d' hd' hdx.1
          · rw [hadd _ _ _ (hb1 hd'), Bool.and_eq_true] at hdx
            exact absurd hdx.2 (by decide)
          · rw [val_upd (hb2 hd')] at hdx
            have := (hcov2 hd' hdx).2
            rw [this] at hx
            exact absurd hx.2 (by decide)
        · obtain ⟨x, hx, hcx, hu⟩ := s1.irr _ c' hc'
          rw [eval_and (na _ _), eval_not, Bool.and_eq_true] at hx
          refine ⟨upd x k true, by rw [← eval_cofactor]; exact hx.1, by rw [hadd _ _ _ (hb1 hc'), hcx]; rfl, ?_⟩
          intro j d hd hdx
          rcases hnth j d hd with ⟨d', hd', rfl⟩ | ⟨hj, d', hd', rfl⟩ | ⟨hj, hd'⟩
          · rw [hadd _ _ _ (hb0 hd'), Bool.and_eq_true] at hdx
            exact absurd hdx.2 (by decide)
          · rw [hadd _ _ _ (hb1 hd'), Bool.and_eq_true] at hdx
            have := hu _ d' hd' hdx.1
            omega
          · rw [val_upd (hb2 hd')] at hdx
            have := (hcov2 hd' hdx).1
            rw [this] at hx
            exact absurd hx.2 (by decide)
        · obtain ⟨x, hx, hcx, hu⟩ := s2.irr _ c hc'
          rw [eval_or nor, eval_and nr0, eval_and nr1, eval_not, eval_not, Bool.or_eq_true, Bool.and_eq_true, Bool.and_eq_true] at hx
          have hn0 : ∀ {j : Nat} {d : Cube}, r0.2[j]? = some d → (!r0.1.eval x) = true → d.val x = false := by
            intro j d h1 h2
            rw [← s0.cubes, Bool.not_eq_true', List.any_eq_false] at h2
            simpa using h2 d (List.mem_of_getElem? h1)
          have hn1 : ∀ {j : Nat} {d : Cube}, r1.2[j]? = some d → (!r1.1.eval x) = true → d.val x = false := by
            intro j d h1 h2
            rw [← s1.cubes, Bool.not_eq_true', List.any_eq_false] at h2
            simpa using h2 d (List.mem_of_getElem? h1)
          rcases hx with hx | hx
          · refine ⟨upd x k false, by rw [← eval_cofactor]; exact hx.1, by rw [val_upd (hb2 hc')]; exact hcx, ?_⟩
            intro j d hd hdx
            rcases hnth j d hd with ⟨d', hd', rfl⟩ | ⟨hj, d', hd', rfl⟩ | ⟨hj, hd'⟩
            · rw [hadd _ _ _ (hb0 hd'), hn0 hd' hx.2] at hdx; cases hdx
            · rw [hadd _ _ _ (hb1 hd'), Bool.and_eq_true] at hdx
              exact absurd hdx.2 (by decide)
            · rw [val_upd (hb2 hd')] at hdx
              have := hu _ d hd' hdx
              omega
          · refine ⟨upd x k true, by rw [← eval_cofactor]; exact hx.1, by rw [val_upd (hb2 hc')]; exact hcx, ?_⟩
            intro j d hd hdx
            rcases hnth j d hd with ⟨d', hd', rfl⟩ | ⟨hj, d', hd', rfl⟩ | ⟨hj, hd'⟩
            · rw [hadd _ _ _ (hb0 hd'), Bool.and_eq_true] at hdx
              exact absurd hdx.2 (by decide)
            · rw [hadd _ _ _ (hb1 hd'), hn1 hd' hx.2] at hdx; cases hdx
            · rw [val_upd (hb2 hd')] at hdx
              have := hu _ d hd' hdx
              omega
    · rw [if_neg hv]
      rw [Bool.or_eq_true, not_or, Bool.not_eq_true, Bool.not_eq_true] at hv
      obtain ⟨r, e, s⟩ := ih tt dc (by omega) h1 h2 w1 w2 (dep_skip d1 hv.1) (dep_skip d2 hv.2) hle
      refine ⟨r, e, s.n_eq, s.wf, s.lower, s.upper, s.cubes, ?_, ?_, s.irr⟩
      · intro x y hxy; exact s.dep x y fun i hi => hxy i (by omega)
      · intro c hc i hi; exact s.below c hc i (by omega)

/-- the cubes of `isop` denote the function -/
theorem isop_spec (t : TT) (h : t.WF) (h32 : t.n ≤ 32) :
    ∃ cs, t.isop = some cs ∧ (∀ x, cs.any (·.val x) = t.eval x) ∧ ∀ c ∈ cs, c.Below t.n := by
  obtain ⟨r, e, s⟩ := isopRec_spec t.n h32 t.n t t (Nat.le_refl _) rfl rfl h h (dep_self t) (dep_self t) (fun _ h => h)
  refine ⟨r.2, by rw [isop, e]; rfl, ?_, s.below⟩
  intro x
  rw [s.cubes x, Bool.eq_iff_iff]
  exact ⟨s.upper x, s.lower x⟩

/-- the cubes of `isop` are irredundant -/
theorem isop_irredundant (t : TT) (h : t.WF) (h32 : t.n ≤ 32) {cs : List Cube} (hcs : t.isop = some cs) :
    Irredundant t cs := by
  obtain ⟨r, e, s⟩ := isopRec_spec t.n h32 t.n t t (Nat.le_refl _) rfl rfl h h (dep_self t) (dep_self t) (fun _ h => h)
  rw [isop, e] at hcs
  simp only [Option.map_some, Option.some.injEq] at hcs
  rw [← hcs]
  exact s.irr

/-- xor: two cubes `!a b`, `a !b` -/
example : (⟨2, [false, true, true, false]⟩ : TT).isop = some [⟨1#32, 3#32⟩, ⟨2#32, 3#32⟩] := by decide +kernel

end TT
end Verif
