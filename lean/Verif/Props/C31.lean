import Verif.Props.C30

set_option autoImplicit false

/-!
# C31: Boolean and truth-table simulation of a LUT

Full claim: for every LUT `n`, fanin tables `ts` over the same variables and bit position `i`, the Boolean
`compute` on the i-th bits of the fanin tables is the i-th bit of the table `compute`.  It is false: the
Boolean version takes the first fanin as the most significant bit of the index.
-/

namespace Verif.Klut

theorem pos_cons (x : Nat → Bool) (n : Nat) :
    TT.pos x (n + 1) = (if x 0 then 1 else 0) + 2 * TT.pos (fun k => x (k + 1)) n := by
  induction n with
  | zero => simp [TT.pos]
  | succ n ih =>
    rw [TT.pos, ih, TT.pos, Nat.pow_succ]
    by_cases h : x (n + 1) = true
    · rw [if_pos h, if_pos h]; omega
    · rw [if_neg h, if_neg h]; omega

/-- list as an assignment -/
def bitAt (xs : List Bool) : Nat → Bool := fun j => match xs[j]? with
  | some b => b
  | none => false

theorem index_eq (xs : List Bool) :
    xs.foldl (fun i b => 2 * i + if b then 1 else 0) 0 = TT.pos (bitAt xs.reverse) xs.length := by
  generalize hys : xs.reverse = ys
  have hx : xs = ys.reverse := by rw [← hys, List.reverse_reverse]
  subst hx
  rw [List.foldl_reverse, List.length_reverse]
  clear hys
  induction ys with
  | nil => rfl
  | cons b ys ih =>
    rw [List.foldr_cons, ih, List.length_cons, pos_cons, Nat.add_comm]
    rfl

theorem pattern_eq (i : Nat) : ∀ (ts : List TT) (j : Nat),
    pattern i j ts = 2 ^ j * TT.pos (bitAt (ts.map (·.get i))) ts.length := by
  intro ts
  induction ts with
  | nil => intro j; simp [pattern, TT.pos]
  | cons t ts ih =>
    intro j
    rw [pattern, ih, List.length_cons, pos_cons]
    have e : (fun k => bitAt (List.map (fun t => t.get i) (t :: ts)) (k + 1)) = bitAt (ts.map (·.get i)) := by
      funext k; rfl
    have e0 : bitAt (List.map (fun t => t.get i) (t :: ts)) 0 = t.get i := rfl
    rw [e, e0, Nat.pow_succ, Nat.mul_add, Nat.mul_assoc]
    split <;> simp

/-- The table version is right: at every bit position it gives the LUT function of the fanin bits. -/
theorem C31_table {N : Klut} {n : Nat} {cs : List Nat} {f : TT} (hN : Built N) (hl : N.IsLut n cs f)
    (ts : List TT) (m : Nat) (hts : ts.length = cs.length) (hm : ∀ t ∈ ts, t.n = m) :
    ∃ r, N.computeTT n ts = some r ∧ r.n = m ∧ r.WF ∧
      ∀ i, i < 2 ^ m → r.get i = f.eval (bitAt (ts.map (·.get i))) := by
  obtain ⟨l1, l2, l3, l4, l5⟩ := hN.wf.lut hl
  have hf := ((C51_bookkeeping hN).2.2.2.1 n cs f hl).2.2.2
  cases ts with
  | nil => exact absurd hts (by intro e; exact l2 (List.length_eq_zero_iff.1 e.symm))
  | cons t ts =>
    have e : N.computeTT n (t :: ts) = some (TT.ofFn t.n fun i => f.get (pattern i 0 (t :: ts))) := by
      unfold computeTT; rw [hf]
    refine ⟨_, e, ?_, TT.wf_ofFn _ _, ?_⟩
    · exact hm t (by simp)
    · intro i hi
      rw [TT.get_ofFn _ (by rw [hm t (by simp)]; exact hi), pattern_eq, Nat.pow_zero, Nat.one_mul, hts, ← l5]
      rfl

/-- The Boolean version evaluates the LUT function on the fanin values in reverse order. -/
theorem C31_boolean_reversed {N : Klut} {n : Nat} {cs : List Nat} {f : TT} (hN : Built N) (hl : N.IsLut n cs f)
    (xs : List Bool) (hxs : xs.length = cs.length) : N.computeBool n xs = some (f.eval (bitAt xs.reverse)) := by
  have hf := ((C51_bookkeeping hN).2.2.2.1 n cs f hl).2.2.2
  rw [computeBool, hf, index_eq, hxs, ← (hN.wf.lut hl).2.2.2.2]
  rfl

/-- C31 for the functions that do not change when the order of their variables is reversed.  Missing: all other
functions, for which the claim is false. -/
theorem C31_agree_partial {N : Klut} {n : Nat} {cs : List Nat} {f : TT} (hN : Built N) (hl : N.IsLut n cs f)
    (hsym : ∀ xs : List Bool, xs.length = cs.length → f.eval (bitAt xs.reverse) = f.eval (bitAt xs))
    (ts : List TT) (m : Nat) (hts : ts.length = cs.length) (hm : ∀ t ∈ ts, t.n = m) (i : Nat) (hi : i < 2 ^ m) :
    N.computeBool n (ts.map (·.get i)) = (N.computeTT n ts).map (·.get i) := by
  obtain ⟨r, h1, _, _, h4⟩ := C31_table hN hl ts m hts hm
  rw [C31_boolean_reversed hN hl _ (by rw [List.length_map]; exact hts), h1, Option.map_some, h4 i hi,
    hsym _ (by rw [List.length_map]; exact hts)]

/-- two inputs with a `<` gate and a majority gate -/
def ltSample : Klut :=
  (Klut.empty.createPi.1.createPi.1.createLt 2 3).1

theorem ltSample_built : Built ltSample := .lt (.pi (.pi .empty)) (by decide) (by decide)

theorem ltSample_lut : ltSample.IsLut 4 [2, 3] (ofWord 2 0x4) :=
  ⟨by decide, by decide +kernel, ⟨[2, 3], 8, 0, 0#32⟩, by decide +kernel, rfl, by decide +kernel⟩

/-- Violation of C31: for `a < b` with the bits `a = 0`, `b = 1` the table version says 1, the Boolean one 0. -/
theorem C31_violated : ∃ (N : Klut) (n : Nat) (cs : List Nat) (f : TT) (ts : List TT) (i : Nat), Built N ∧ N.IsLut n cs f ∧
    ts.length = cs.length ∧ (∀ t ∈ ts, t.n = 1) ∧ i < 2 ^ 1 ∧
    N.computeBool n (ts.map (·.get i)) = some false ∧ (N.computeTT n ts).map (·.get i) = some true :=
  ⟨ltSample, 4, [2, 3], ofWord 2 0x4, [TT.const 1 false, TT.nthVar 1 0], 1, ltSample_built, ltSample_lut, rfl,
    by decide, by decide, by decide +kernel, by decide +kernel⟩

/-- the hypothesis of `C31_agree_partial` holds for a majority gate -/
example : ∃ N : Klut, Built N ∧ N.IsLut 5 [2, 3, 4] (ofWord 3 0xe8) ∧
    ∀ xs : List Bool, xs.length = 3 → (ofWord 3 0xe8).eval (bitAt xs.reverse) = (ofWord 3 0xe8).eval (bitAt xs) := by
  refine ⟨(Klut.empty.createPi.1.createPi.1.createPi.1.createMaj 2 3 4).1, .maj (.pi (.pi (.pi .empty))) (by decide) (by decide)
    (by decide), ⟨by decide, by decide +kernel, ⟨[2, 3, 4], 14, 0, 0#32⟩, by decide +kernel, rfl, by decide +kernel⟩, ?_⟩
  intro xs hxs
  match xs, hxs with
  | [a, b, c], _ => cases a <;> cases b <;> cases c <;> decide +kernel

end Verif.Klut
