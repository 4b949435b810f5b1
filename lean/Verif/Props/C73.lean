import Verif.Cnf.Klut
import Verif.Klut.Inv
import Verif.Props.C43

set_option autoImplicit false

/-!
# C73: the CNF of a LUT network is exact
-/

namespace Verif.Cnf

/-! ### clauses of a truth table -/

theorem getMask_char (n : Nat) (pol : Bool) (c : Cube) (hn : n < 32) (i : Nat) :
    (charCube n pol c).getMask i = (c.getMask i || decide (i = n)) := by
  rw [charCube, Cube.getMask_add _ _ _ hn]
  simp [Cube.getMask]

theorem getBit_char (n : Nat) (pol : Bool) (c : Cube) (hn : n < 32) (i : Nat) (hi : i < 32) :
    (charCube n pol c).getBit i = if i = n then pol else (!c.getBit i && c.getMask i) := by
  rw [charCube, Cube.getBit_add _ _ _ hn _ hi]
  split <;> simp [Cube.getBit, Cube.getMask, hi]

theorem mem_cubeClause (c : Cube) (l : Nat) : ∀ (ls : List Nat) (i : Nat),
    l ∈ cubeClause c i ls ↔ ∃ j k : Nat, ls[j]? = some k ∧ c.getMask (i + j) = true ∧ l = litNotCond k (!c.getBit (i + j)) := by
  intro ls
  induction ls with
  | nil => intro i; simp [cubeClause]
  | cons a ls ih =>
    intro i
    have step : (∃ j k : Nat, (a :: ls)[j]? = some k ∧ c.getMask (i + j) = true ∧ l = litNotCond k (!c.getBit (i + j))) ↔
        (c.getMask i = true ∧ l = litNotCond a (!c.getBit i)) ∨ l ∈ cubeClause c (i + 1) ls := by
      rw [ih]
      constructor
      · rintro ⟨j, k, h1, h2, h3⟩
        cases j with
        | zero =>
          simp only [List.getElem?_cons_zero, Option.some.injEq] at h1
          subst h1
          exact Or.inl ⟨h2, h3⟩
        | succ j =>
          rw [show i + (j + 1) = i + 1 + j by omega] at h2 h3
          exact Or.inr ⟨j, k, by simpa using h1, h2, h3⟩
      · rintro (⟨h2, h3⟩ | ⟨j, k, h1, h2, h3⟩)
        · exact ⟨0, a, rfl, h2, h3⟩
        · rw [show i + 1 + j = i + (j + 1) by omega] at h2 h3
          exact ⟨j + 1, k, by simpa using h1, h2, h3⟩
    rw [step, cubeClause]
    by_cases hm : c.getMask i = true
    · rw [if_pos hm]; simp [hm]
    · rw [if_neg hm]; simp [hm]

/-- the values of literals, as an assignment of the variables of a truth table -/
def litArgs (s : Nat → Bool) (ls : List Nat) : Nat → Bool := fun j => match ls[j]? with
  | some l => decide (LitTrue s l)
  | none => false

/-- one clause of the characteristic function: the cube is false or the output has the given value -/
theorem charClause_iff (s : Nat → Bool) (n : Nat) (hn : n < 32) (pol : Bool) (c : Cube) (hc : c.Below n) (ls : List Nat)
    (hl : ls.length = n) (f : Nat) :
    (∃ l ∈ cubeClause (charCube n pol c) 0 (ls ++ [f]), LitTrue s l) ↔
      (c.val (litArgs s ls) = true → decide (LitTrue s f) = pol) := by
  simp only [mem_cubeClause, Nat.zero_add]
  constructor
  · rintro ⟨l, ⟨j, k, h1, h2, rfl⟩, ht⟩ hv
    rw [Cube.val_iff] at hv
    by_cases hj : j = n
    · subst hj
      rw [List.getElem?_append_right (by omega), hl] at h1
      simp only [Nat.sub_self, List.getElem?_cons_zero, Option.some.injEq] at h1
      subst h1
      rw [getBit_char _ _ _ hn _ hn, if_pos rfl, litTrue_cond] at ht
      cases pol <;> simpa using ht
    · have hlt : j < n := by
        have := (List.getElem?_eq_some_iff.1 h1).1
        simp only [List.length_append, List.length_singleton] at this
        omega
      rw [List.getElem?_append_left (by omega)] at h1
      have hm : c.getMask j = true := by
        rw [getMask_char _ _ _ hn] at h2; simpa [hj] using h2
      have := hv j (by omega) hm
      rw [getBit_char _ _ _ hn _ (by omega), if_neg hj, hm, litTrue_cond] at ht
      simp only [litArgs, h1] at this
      exfalso
      revert ht this
      by_cases hk : LitTrue s k <;> cases c.getBit j <;> simp [hk]
  · intro h
    by_cases hv : c.val (litArgs s ls) = true
    · refine ⟨_, ⟨n, f, ?_, ?_, rfl⟩, ?_⟩
      · rw [List.getElem?_append_right (by omega), hl]; simp
      · rw [getMask_char _ _ _ hn]; simp
      · rw [getBit_char _ _ _ hn _ hn, if_pos rfl, litTrue_cond]
        have := h hv
        cases pol <;> simpa using this
    · rw [Cube.val_iff] at hv
      push Not at hv
      obtain ⟨j, hj, hm, hne⟩ := hv
      have hlt : j < n := by
        by_contra hge
        rw [hc j (by omega)] at hm; cases hm
      obtain ⟨k, hk⟩ : ∃ k, ls[j]? = some k := ⟨_, List.getElem?_eq_getElem (by omega)⟩
      refine ⟨_, ⟨j, k, ?_, ?_, rfl⟩, ?_⟩
      · rw [List.getElem?_append_left (by omega)]; exact hk
      · rw [getMask_char _ _ _ hn]; simp [hm]
      · rw [getBit_char _ _ _ hn _ hj, if_neg (by omega), hm, litTrue_cond]
        simp only [litArgs, hk] at hne
        revert hne
        by_cases hk : LitTrue s k <;> cases c.getBit j <;> simp [hk]

/-- C73, one LUT: for every truth table with at most 31 variables the generated clauses are satisfied exactly by the
assignments that give the output literal the value of the table at the values of the input literals. -/
theorem C73_function (t : TT) (ht : t.WF) (hn : t.n < 32) (f : Nat) (ls : List Nat) (hl : ls.length = t.n) :
    ∃ cs, onFunction f ls t = some cs ∧ ∀ s, Satisfies s cs ↔ (LitTrue s f ↔ t.eval (litArgs s ls) = true) := by
  obtain ⟨a, ea, ha, ba⟩ := TT.isop_spec t ht (by omega)
  obtain ⟨b, eb, hb, bb⟩ := TT.isop_spec t.not (TT.wf_not t) (by have : t.not.n = t.n := rfl; omega)
  refine ⟨_, by rw [onFunction, cnfCharacteristic, ea, eb]; rfl, ?_⟩
  intro s
  have h1 : (∀ c ∈ a, ∃ l ∈ cubeClause (charCube t.n true c) 0 (ls ++ [f]), LitTrue s l) ↔
      (t.eval (litArgs s ls) = true → LitTrue s f) := by
    rw [← ha]
    constructor
    · intro h hv
      obtain ⟨c, hc, hv⟩ := List.any_eq_true.1 hv
      have := (charClause_iff s t.n hn true c (ba c hc) ls hl f).1 (h c hc) hv
      simpa using this
    · intro h c hc
      rw [charClause_iff s t.n hn true c (ba c hc) ls hl f]
      intro hv
      simpa using h (List.any_eq_true.2 ⟨c, hc, hv⟩)
  have h2 : (∀ c ∈ b, ∃ l ∈ cubeClause (charCube t.n false c) 0 (ls ++ [f]), LitTrue s l) ↔
      (t.eval (litArgs s ls) = false → ¬ LitTrue s f) := by
    have hb' := hb (litArgs s ls)
    rw [TT.eval_not] at hb'
    have he : t.eval (litArgs s ls) = false ↔ b.any (·.val (litArgs s ls)) = true := by
      rw [hb']; cases t.eval (litArgs s ls) <;> simp
    rw [he]
    constructor
    · intro h hv
      obtain ⟨c, hc, hv⟩ := List.any_eq_true.1 hv
      have := (charClause_iff s t.n hn false c (bb c hc) ls hl f).1 (h c hc) hv
      simpa using this
    · intro h c hc
      rw [charClause_iff s t.n hn false c (bb c hc) ls hl f]
      intro hv
      simpa using h (List.any_eq_true.2 ⟨c, hc, hv⟩)
  have h3 : Satisfies s (List.map (fun c => cubeClause c 0 (ls ++ [f])) (a.map (charCube t.n true) ++ b.map (charCube t.n false))) ↔
      (t.eval (litArgs s ls) = true → LitTrue s f) ∧ (t.eval (litArgs s ls) = false → ¬ LitTrue s f) := by
    rw [← h1, ← h2, List.map_append, satisfies_append]
    simp only [Satisfies, List.mem_map, List.map_map, Function.comp, forall_exists_index, and_imp, forall_apply_eq_imp_iff₂]
  rw [h3]
  by_cases hf : LitTrue s f <;> cases t.eval (litArgs s ls) <;> simp [hf]

/-! ### the whole network -/

variable {N : Klut}

theorem gatesK_nodup (N : Klut) : N.gates.Nodup := List.Nodup.filter _ List.nodup_range

theorem isCi_iff (h : N.WF) {n : Nat} (hn : n < N.nodes.length) : N.isCi n = true ↔ n ∈ N.inputs := by
  obtain ⟨nd, hnd⟩ : ∃ nd, N.nodes[n]? = some nd := ⟨_, List.getElem?_eq_getElem hn⟩
  rw [← h.flags n nd hnd, Klut.isCi, hnd]
  simp

theorem mem_gatesK (h : N.WF) (n : Nat) : n ∈ N.gates ↔ ∃ cs f, N.IsLut n cs f := by
  simp only [Klut.gates, List.mem_filter, List.mem_range, Bool.and_eq_true, decide_eq_true_eq, Bool.not_eq_true']
  constructor
  · rintro ⟨h1, h2, h3⟩
    obtain ⟨nd, hnd⟩ : ∃ nd, N.nodes[n]? = some nd := ⟨_, List.getElem?_eq_getElem h1⟩
    have hni : n ∉ N.inputs := fun hm => by rw [(isCi_iff h h1).2 hm] at h3; cases h3
    obtain ⟨_, _, f, hf, _⟩ := h.gate n nd hnd h2 hni
    exact ⟨_, f, h2, hni, nd, hnd, rfl, hf⟩
  · rintro ⟨cs, f, g⟩
    have hl := (h.lut g).1
    refine ⟨hl, g.1, ?_⟩
    cases hc : N.isCi n
    · rfl
    · exact absurd ((isCi_iff h hl).1 hc) g.2.1

/-- The literals of the nodes: the constants are the two literals of variable 0, input `k` is variable `k + 1`, every
LUT has a variable of its own behind them. -/
structure EncodingK (N : Klut) (lit : Nat → Nat) : Prop where
  const0 : lit 0 = 0
  const1 : lit 1 = 1
  input : ∀ k n : Nat, N.inputs[k]? = some n → lit n = 2 * (k + 1)
  lut : ∀ n cs f, N.IsLut n cs f → lit n % 2 = 0 ∧ N.inputs.length < lit n / 2 ∧ lit n / 2 < N.nodes.length
  inj : ∀ m n cs f cs' f', N.IsLut m cs f → N.IsLut n cs' f' → lit m = lit n → m = n

theorem gatesK_length (h : N.WF) : N.gates.length + N.inputs.length + 2 ≤ N.nodes.length := by
  have hnd : (N.gates ++ N.inputs ++ [0, 1]).Nodup := by
    refine List.Nodup.append (List.Nodup.append (gatesK_nodup N) h.inputsNodup ?_) (by decide) ?_
    · intro n h1 h2
      obtain ⟨cs, f, g⟩ := (mem_gatesK h n).1 h1
      exact g.2.1 h2
    · intro n h1 h2
      have : 2 ≤ n := by
        rcases List.mem_append.1 h1 with h1 | h1
        · obtain ⟨cs, f, g⟩ := (mem_gatesK h n).1 h1; exact g.1
        · exact (h.inputs n h1).1
      simp only [List.mem_cons, List.not_mem_nil, or_false] at h2
      omega
  have hsub : (N.gates ++ N.inputs ++ [0, 1]) ⊆ List.range N.nodes.length := by
    intro n hn
    rw [List.mem_range]
    rcases List.mem_append.1 hn with hn | hn
    · rcases List.mem_append.1 hn with hn | hn
      · obtain ⟨cs, f, g⟩ := (mem_gatesK h n).1 hn; exact (h.lut g).1
      · exact (h.inputs n hn).2
    · have := h.len
      simp only [List.mem_cons, List.not_mem_nil, or_false] at hn
      omega
  have := (List.subperm_of_subset hnd hsub).length_le
  simp only [List.length_append, List.length_cons, List.length_nil, List.length_range] at this
  omega

theorem encodingK (h : N.WF) (hpi : N.inputs.length = N.numPis) : EncodingK N (nodeLiteralsK N) := by
  have ht : N.inputs.take N.numPis = N.inputs := List.take_of_length_le (by omega)
  have hg : ∀ n ∈ N.gates, 2 ≤ n ∧ n ∉ N.inputs := by
    intro n hn
    obtain ⟨cs, f, g⟩ := (mem_gatesK h n).1 hn
    exact ⟨g.1, g.2.1⟩
  have hc : ∀ n, n < 2 → nodeLiteralsK N n = if n = Klut.getConstant true then makeLit 0 true else 0 := by
    intro n hn
    rw [nodeLiteralsK, ht, numberNodes_not_mem _ _ _ _ (fun h => by have := (hg n h).1; omega),
      numberNodes_not_mem _ _ _ _ (fun hm => by have := (h.inputs n hm).1; omega)]
  have hl : ∀ (k n : Nat), N.gates[k]? = some n → nodeLiteralsK N n = makeLit (N.numPis + 1 + k) := by
    intro k n hk
    rw [nodeLiteralsK, numberNodes_get _ _ _ (gatesK_nodup N) k n hk]
  have hsz := gatesK_length h
  refine ⟨by rw [hc 0 (by omega)]; rfl, by rw [hc 1 (by omega)]; rfl, ?_, ?_, ?_⟩
  · intro k n hk
    rw [nodeLiteralsK, ht, numberNodes_not_mem _ _ _ _ (fun h => (hg n h).2 (List.mem_of_getElem? hk)),
      numberNodes_get _ _ _ h.inputsNodup k n hk]
    simp only [makeLit]
    simp; omega
  · intro n cs f g
    obtain ⟨k, hk⟩ := List.getElem?_of_mem ((mem_gatesK h n).2 ⟨cs, f, g⟩)
    have := (List.getElem?_eq_some_iff.1 hk).1
    rw [hl k n hk]
    simp only [makeLit, Bool.false_eq_true, if_false]
    omega
  · intro m n cs f cs' f' g g' he
    obtain ⟨k, hk⟩ := List.getElem?_of_mem ((mem_gatesK h m).2 ⟨cs, f, g⟩)
    obtain ⟨j, hj⟩ := List.getElem?_of_mem ((mem_gatesK h n).2 ⟨cs', f', g'⟩)
    rw [hl k m hk, hl j n hj] at he
    simp only [makeLit, Bool.false_eq_true, if_false] at he
    have : k = j := by omega
    subst this
    rw [hk] at hj
    exact Option.some.inj hj

theorem litArgs_map (s : Nat → Bool) (m : Nat → Nat) (cs : List Nat) :
    litArgs s (cs.map m) = Klut.args (fun n => decide (LitTrue s (m n))) cs := by
  funext j
  simp only [litArgs, Klut.args, List.getElem?_map]
  cases cs[j]? <;> rfl

theorem lutsClauses_spec (h : N.WF) (m : Nat → Nat) (hw : ∀ n cs f, N.IsLut n cs f → f.n < 32) : ∀ (l : List Nat),
    (∀ n ∈ l, n ∈ N.gates) → ∃ cs, lutsClauses N m l = some cs ∧ ∀ s, Satisfies s cs ↔
      ∀ n ∈ l, ∀ ch f, N.IsLut n ch f →
        (LitTrue s (m n) ↔ f.eval (Klut.args (fun k => decide (LitTrue s (m k))) ch) = true) := by
  intro l
  induction l with
  | nil => intro _; exact ⟨[], rfl, by simp [Satisfies]⟩
  | cons n l ih =>
    intro hl
    obtain ⟨cs, e, hs⟩ := ih fun k hk => hl k (by simp [hk])
    obtain ⟨ch, f, g⟩ := (mem_gatesK h n).1 (hl n (by simp))
    obtain ⟨h1, h2, h3, h4, h5⟩ := h.lut g
    have hfan : N.fanins n = some ch := by
      obtain ⟨g1, g2, nd, g3, g4, g5⟩ := g
      rw [Klut.fanins, if_neg, g3]
      · rw [Option.map_some, g4]
      · rintro (h0 | hc)
        · omega
        · exact g2 ((isCi_iff h h1).1 hc)
    have hfun : N.nodeFunction n = some f := by
      obtain ⟨g1, g2, nd, g3, g4, g5⟩ := g
      rw [Klut.nodeFunction, g3]; exact g5
    obtain ⟨c, ec, hc⟩ := C73_function f h4 (hw n ch f g) (m n) (ch.map m) (by rw [List.length_map, h5])
    refine ⟨_, by rw [lutsClauses, lutClauses, hfan, hfun]; dsimp only; rw [ec, e], ?_⟩
    intro s
    rw [satisfies_append, hs s, hc s, litArgs_map]
    simp only [List.mem_cons, forall_eq_or_imp]
    constructor
    · rintro ⟨k1, k2⟩
      exact ⟨fun ch' f' g' => by obtain ⟨rfl, rfl⟩ := g.unique g'; exact k1, k2⟩
    · rintro ⟨k1, k2⟩; exact ⟨k1 ch f g, k2⟩

/-- C73.  The clauses generated for a LUT network without registers, all of whose LUTs have at most 31 inputs, are
satisfied by an assignment `a` exactly when the literals of the nodes have the node values under the input assignment
contained in `a`.  The output literals are those of the output nodes. -/
theorem C73_exact (N : Klut) (hN : Klut.Built N) (hpi : N.inputs.length = N.numPis) (hpo : N.outputs.length = N.numPos)
    (hw : ∀ n cs f, N.IsLut n cs f → f.n < 32) :
    ∃ cs outs lit, generateCnfK N (nodeLiteralsK N) = some (cs, outs) ∧ EncodingK N lit ∧
      (∀ a, Satisfies a cs ↔ N.Consistent (fun k => a (k + 1)) (fun n => decide (LitTrue a (lit n)))) ∧
      ∀ a, outs.map (fun l => decide (LitTrue a l)) = N.outputs.map (fun n => decide (LitTrue a (lit n))) := by
  have h := hN.wf
  have henc := encodingK h hpi
  obtain ⟨cs, e, hcs⟩ := lutsClauses_spec h (nodeLiteralsK N) hw N.gates (fun _ h => h)
  refine ⟨_, _, nodeLiteralsK N, by rw [generateCnfK, e], henc, ?_, ?_⟩
  · intro a
    rw [satisfies_cons, hcs a]
    have hconst : (∃ l ∈ [litNot (nodeLiteralsK N (Klut.getConstant false))], LitTrue a l) ↔ a 0 = false := by
      simp only [List.mem_singleton, exists_eq_left, litTrue_not]
      show ¬ LitTrue a (nodeLiteralsK N 0) ↔ _
      rw [henc.const0]; simp [LitTrue]
    rw [hconst]
    constructor
    · rintro ⟨h0, h1⟩
      refine ⟨?_, ?_, ?_, ?_⟩
      · simp only [henc.const0]; simp [LitTrue, h0]
      · simp only [henc.const1]; simp [LitTrue, h0]
      · intro k n hk
        simp only [henc.input k n hk]
        have e1 : 2 * (k + 1) / 2 = k + 1 := by omega
        have e2 : 2 * (k + 1) % 2 = 0 := by omega
        simp [LitTrue, e1, e2]
      · intro n ch f g
        have := h1 n ((mem_gatesK h n).2 ⟨ch, f, g⟩) ch f g
        rw [Bool.eq_iff_iff, decide_eq_true_iff]; exact this
    · intro hc
      refine ⟨?_, ?_⟩
      · have := hc.const0
        simp only [henc.const0] at this
        simpa [LitTrue] using this
      · intro n _ ch f g
        have := hc.lut n ch f g
        rw [Bool.eq_iff_iff, decide_eq_true_iff] at this; exact this
  · intro a
    rw [List.take_of_length_le (by omega), List.map_map]
    rfl

/-- C73: hence the clauses together with any required output values are satisfiable exactly when some input
assignment produces these outputs. -/
theorem C73_outputs (N : Klut) (hN : Klut.Built N) (hpi : N.inputs.length = N.numPis) (hpo : N.outputs.length = N.numPos)
    (hw : ∀ n cs f, N.IsLut n cs f → f.n < 32) (want : List Bool) :
    ∃ cs outs, generateCnfK N (nodeLiteralsK N) = some (cs, outs) ∧
      ((∃ a, Satisfies a cs ∧ outs.map (fun l => decide (LitTrue a l)) = want) ↔
        ∃ x v, N.Consistent x v ∧ N.outputs.map v = want) := by
  obtain ⟨cs, outs, lit, e, henc, h1, h2⟩ := C73_exact N hN hpi hpo hw
  have h := hN.wf
  refine ⟨cs, outs, e, ?_, ?_⟩
  · rintro ⟨a, hs, hw⟩
    exact ⟨_, _, (h1 a).1 hs, by rw [← h2]; exact hw⟩
  · rintro ⟨x, v, hc, hv⟩
    classical
    -- read the assignment off the valuation
    let a : Nat → Bool := fun y =>
      if h : ∃ n cs f, N.IsLut n cs f ∧ lit n = 2 * y then v h.choose else if y = 0 then false else x (y - 1)
    have hlut : ∀ n cs f, N.IsLut n cs f → decide (LitTrue a (lit n)) = v n := by
      intro n cs f g
      obtain ⟨k1, k2, k3⟩ := henc.lut n cs f g
      have hex : ∃ k cs f, N.IsLut k cs f ∧ lit k = 2 * (lit n / 2) := ⟨n, cs, f, g, by omega⟩
      have he : a (lit n / 2) = v hex.choose := by simp only [a]; rw [dif_pos hex]
      obtain ⟨cs', f', g', hl⟩ := hex.choose_spec
      rw [henc.inj _ _ _ _ _ _ g' g (by omega)] at he
      rw [Bool.eq_iff_iff, decide_eq_true_iff, LitTrue, he, k1]; simp
    have hno : ∀ y, y ≤ N.inputs.length → a y = if y = 0 then false else x (y - 1) := by
      intro y hy
      simp only [a]
      rw [dif_neg]
      rintro ⟨n, cs, f, g, hl⟩
      have := henc.lut n cs f g
      omega
    have hin : ∀ (k n : Nat), N.inputs[k]? = some n → a (k + 1) = v n := by
      intro k n hk
      have := (List.getElem?_eq_some_iff.1 hk).1
      rw [hno (k + 1) (by omega), if_neg (by omega), hc.input k n hk, Nat.add_sub_cancel]
    have hz : a 0 = false := by rw [hno 0 (by omega), if_pos rfl]
    have hall : ∀ n, n < N.nodes.length → decide (LitTrue a (lit n)) = v n := by
      intro n hn
      by_cases h0 : n = 0
      · subst h0; rw [henc.const0, hc.const0]; simp [LitTrue, hz]
      by_cases h1 : n = 1
      · subst h1; rw [henc.const1, hc.const1]; simp [LitTrue, hz]
      by_cases hi : n ∈ N.inputs
      · obtain ⟨k, hk⟩ := List.getElem?_of_mem hi
        rw [henc.input k n hk, ← hin k n hk]
        have e1 : 2 * (k + 1) / 2 = k + 1 := by omega
        have e2 : 2 * (k + 1) % 2 = 0 := by omega
        simp [LitTrue, e1, e2]
      · obtain ⟨nd, hnd⟩ : ∃ nd, N.nodes[n]? = some nd := ⟨_, List.getElem?_eq_getElem hn⟩
        obtain ⟨_, _, f, hf, _⟩ := h.gate n nd hnd (by omega) hi
        exact hlut n _ f ⟨by omega, hi, nd, hnd, rfl, hf⟩
    refine ⟨a, (h1 a).2 ⟨?_, ?_, ?_, ?_⟩, ?_⟩
    · rw [hall 0 (by have := h.len; omega)]; exact hc.const0
    · rw [hall 1 (by have := h.len; omega)]; exact hc.const1
    · intro k n hk
      rw [hall n (h.inputs n (List.mem_of_getElem? hk)).2, hin k n hk]
    · intro n cs f g
      rw [hall n (h.lut g).1, hc.lut n cs f g]
      congr 1
      exact Klut.args_congr fun c hcm => (hall c (by have := (h.lut g).2.2.1 c hcm; have := (h.lut g).1; omega)).symm
    · rw [h2, ← hv]
      exact List.map_congr_left fun o ho => hall o (h.outputs o ho)

/-! ### examples -/

/-- two inputs, a multiplexer with a constant select, an inverter -/
def demoK : Klut :=
  ((((Klut.empty.createPi.1.createPi.1.createNode [2, 3, 1] ⟨3, [false, true, false, true, false, false, true, true]⟩).1.createNot 4).1.createPo 5).createPo 4)

theorem demoK_built : Klut.Built demoK :=
  .po (.po (.not (.node (.pi (.pi .empty)) (by decide) (by decide) (by decide)) (by decide +kernel)) (by decide +kernel)) (by decide +kernel)

/-- the multiplexer of `demoK` needs four clauses, the inverter two -/
example : generateCnfK demoK (nodeLiteralsK demoK) =
    some ([[1], [3, 1, 6], [5, 0, 6], [2, 1, 7], [4, 0, 7], [6, 8], [7, 9]], [8, 6]) := by decide +kernel

theorem demoK_width : ∀ n cs f, demoK.IsLut n cs f → f.n < 32 := by
  intro n cs f g
  have h := demoK_built.wf
  rw [(h.lut g).2.2.2.2]
  obtain ⟨_, _, nd, hnd, rfl, _⟩ := g
  have : demoK.nodes.all (fun nd => decide (nd.children.length < 32)) = true := by decide +kernel
  simpa using List.all_eq_true.1 this nd (List.mem_of_getElem? hnd)

example : ∃ cs outs, generateCnfK demoK (nodeLiteralsK demoK) = some (cs, outs) ∧
    ((∃ a, Satisfies a cs ∧ outs.map (fun l => decide (LitTrue a l)) = [false, true]) ↔
      ∃ x v, demoK.Consistent x v ∧ demoK.outputs.map v = [false, true]) :=
  C73_outputs demoK demoK_built (by decide +kernel) (by decide +kernel) demoK_width [false, true]

/-- a register whose output is a primary output -/
def regK : Klut := Klut.createPo Klut.empty.createRo.1 2

/-- C73 does not hold for networks with registers: `foreach_pi` skips the register outputs, which therefore keep the
literal 0 of the constant.  The clauses of `regK` cannot be satisfied with a true output, although the register may
hold a one. -/
theorem C73_violated_register : Klut.Built regK ∧ (∃ x v, regK.Consistent x v ∧ regK.outputs.map v = [true]) ∧
    ∃ cs outs, generateCnfK regK (nodeLiteralsK regK) = some (cs, outs) ∧
      ¬ ∃ a, Satisfies a cs ∧ outs.map (fun l => decide (LitTrue a l)) = [true] := by
  have hb : Klut.Built regK := .po (.ro .empty) (by decide)
  refine ⟨hb, ?_, [[1]], [0], by decide +kernel, ?_⟩
  · obtain ⟨v, hv⟩ := hb.wf.exists (fun _ => true)
    exact ⟨_, v, hv, by show [v 2] = [true]; rw [hv.input 0 2 rfl]⟩
  · rintro ⟨a, hs, ho⟩
    obtain ⟨l, hl, ht⟩ := hs [1] (by simp)
    simp only [List.mem_singleton] at hl
    subst hl
    simp [LitTrue] at ho ht
    rw [ht] at ho
    cases ho

end Verif.Cnf
