import Verif.Cnf.CheckerSpec
import Verif.Props.C73
import Verif.Mapping.ChoiceProof
import Verif.Validator.Proof

set_option autoImplicit false

/-!
# The checker of mapped networks: helper lemmas
-/

namespace Verif.Checker
open Cnf

/-! ### growing states -/

/-- the second state extends the first -/
structure Le (S T : State) : Prop where
  next : S.next ≤ T.next
  var : ∀ k, 1 < S.var k → T.var k = S.var k
  clauses : ∀ c ∈ S.clauses, c ∈ T.clauses

theorem Le.refl (S : State) : Le S S := ⟨Nat.le_refl _, fun _ _ => rfl, fun _ h => h⟩

theorem Le.trans {S T U : State} (h : Le S T) (g : Le T U) : Le S U :=
  ⟨Nat.le_trans h.next g.next, fun k hk => by rw [g.var k (by rw [h.var k hk]; exact hk), h.var k hk],
    fun c hc => g.clauses c (h.clauses c hc)⟩

theorem Le.has {S T : State} (h : Le S T) {k : Nat} (hk : 1 < S.var k) : 1 < T.var k := by rw [h.var k hk]; exact hk

theorem prepare_le {S : State} (n : Nat) : Le S (prepare S n) := by
  unfold prepare
  split
  · refine ⟨Nat.le_succ _, fun k hk => ?_, fun _ h => h⟩
    show (if k = n then S.next else S.var k) = _
    split
    · subst k; omega
    · rfl
  · exact Le.refl S

theorem prepare_has {S : State} (h2 : 2 ≤ S.next) (n : Nat) : 1 < (prepare S n).var n := by
  unfold prepare
  split
  · show 1 < if n = n then S.next else _
    rw [if_pos rfl]; omega
  · omega

theorem prepares_le : ∀ (l : List Nat) (S : State), Le S (prepares S l)
  | [], S => Le.refl S
  | n :: l, S => (prepare_le n).trans (prepares_le l (prepare S n))

theorem prepares_has : ∀ (l : List Nat) (S : State), 2 ≤ S.next → ∀ n ∈ l, 1 < (prepares S l).var n
  | [], _, _, _, h => by cases h
  | m :: l, S, h2, n, h => by
    rcases List.mem_cons.1 h with rfl | h
    · exact (prepares_le l (prepare S n)).has (prepare_has h2 n)
    · exact prepares_has l (prepare S m) (Nat.le_trans h2 (prepare_le m).next) n h

/-! ### an assignment for the variables of a valuation -/

/-- `a` gives the variables the values of the nodes and satisfies the clauses -/
structure Good (v : Nat → Bool) (S : State) (a : Nat → Bool) : Prop where
  next2 : 2 ≤ S.next
  var : ∀ n, 1 < S.var n → S.var n < S.next ∧ a (S.var n) = v n
  lits : ∀ c ∈ S.clauses, ∀ l ∈ c, l / 2 < S.next
  sat : Satisfies a S.clauses

theorem litTrue_congr {a b : Nat → Bool} {l : Nat} (h : a (l / 2) = b (l / 2)) : LitTrue a l ↔ LitTrue b l := by
  unfold LitTrue; rw [h]

/-- one more variable -/
theorem Good.fresh {v : Nat → Bool} {S : State} {a : Nat → Bool} (h : Good v S a) (x : Bool) :
    Good v { S with next := S.next + 1 } (fun y => if y = S.next then x else a y) := by
  refine ⟨Nat.le_succ_of_le h.next2, ?_, ?_, ?_⟩
  · intro n hn
    have hn' : 1 < S.var n := hn
    obtain ⟨h1, h2⟩ := h.var n hn'
    refine ⟨Nat.lt_succ_of_lt h1, ?_⟩
    show (if S.var n = S.next then x else a (S.var n)) = v n
    rw [if_neg (by omega), h2]
  · intro c hc l hl; exact Nat.lt_succ_of_lt (h.lits c hc l hl)
  · intro c hc
    obtain ⟨l, hl, ht⟩ := h.sat c hc
    refine ⟨l, hl, (litTrue_congr ?_).2 ht⟩
    have := h.lits c hc l hl
    show (if l / 2 = S.next then x else a (l / 2)) = _
    rw [if_neg (by omega)]

theorem Good.prepare {v : Nat → Bool} {S : State} {a : Nat → Bool} (h : Good v S a) (n : Nat) :
    ∃ b, Good v (prepare S n) b ∧ ∀ y, y < S.next → b y = a y := by
  unfold Checker.prepare
  split
  · have g := h.fresh (v n)
    refine ⟨_, ⟨g.next2, ?_, g.lits, g.sat⟩, fun y hy => if_neg (by omega)⟩
    intro k hk
    dsimp only at hk ⊢
    split at hk
    · rename_i e
      subst e
      exact ⟨by rw [if_pos rfl]; omega, by rw [if_pos rfl, if_pos rfl]⟩
    · rename_i e
      rw [if_neg e]
      exact g.var k hk
  · exact ⟨a, h, fun _ _ => rfl⟩

theorem Good.prepares {v : Nat → Bool} : ∀ (l : List Nat) {S : State} {a : Nat → Bool}, Good v S a →
    ∃ b, Good v (prepares S l) b ∧ ∀ y, y < S.next → b y = a y
  | [], _, a, h => ⟨a, h, fun _ _ => rfl⟩
  | n :: l, S, a, h => by
    obtain ⟨b, hb, eb⟩ := h.prepare n
    obtain ⟨c, hc, ec⟩ := Good.prepares l hb
    exact ⟨c, hc, fun y hy => by rw [ec y (Nat.lt_of_lt_of_le hy (prepare_le n).next), eb y hy]⟩

/-- more clauses -/
theorem Good.add {v : Nat → Bool} {S : State} {a : Nat → Bool} (h : Good v S a) (cs : List (List Nat))
    (hl : ∀ c ∈ cs, ∀ l ∈ c, l / 2 < S.next) (hs : Satisfies a cs) : Good v { S with clauses := S.clauses ++ cs } a := by
  refine ⟨h.next2, h.var, ?_, (satisfies_append a _ _).2 ⟨h.sat, hs⟩⟩
  intro c hc
  rcases List.mem_append.1 hc with hc | hc
  exacts [h.lits c hc, hl c hc]

theorem makeLit_div (v : Nat) (c : Bool) : makeLit v c / 2 = v := by cases c <;> simp [makeLit]; omega

theorem litNotCond_div (v : Nat) (c : Bool) : litNotCond (makeLit v) c / 2 = v := by
  cases c <;> simp [litNotCond, litNot, makeLit]; omega

/-- what `cubeClause` is made of -/
theorem cubeClause_lits (c : Cube) (vs : List Nat) {l : Nat} (h : l ∈ cubeClause c 0 (vs.map fun v => makeLit v)) : l / 2 ∈ vs := by
  obtain ⟨j, k, hk, _, rfl⟩ := (mem_cubeClause c l _ 0).1 h
  rw [List.getElem?_map] at hk
  cases hj : vs[j]? with
  | none => rw [hj] at hk; cases hk
  | some v =>
    rw [hj] at hk
    obtain rfl := Option.some.inj hk
    rw [litNotCond_div]
    exact List.mem_of_getElem? hj

theorem litArgs_leaves (a v : Nat → Bool) (var : Nat → Nat) (ls : List Nat) (h : ∀ l ∈ ls, a (var l) = v l) :
    litArgs a (ls.map fun l => makeLit (var l)) = Klut.args v ls := by
  rw [litArgs_map a (fun l => makeLit (var l)) ls]
  refine Klut.args_congr fun c hc => ?_
  rw [← h c hc, Bool.eq_iff_iff, decide_eq_true_iff, litTrue_makeLit]; simp

/-- the clauses of a cell function -/
theorem addFunc_spec {S : State} {f : TT} (hf : f.WF) (hn : f.n < 32) {leaves : List Nat} (hl : leaves.length = f.n) :
    ∃ cs S1, S1 = prepares { S with next := S.next + 1 } leaves ∧
      addFunc S f leaves = some ({ S1 with clauses := S1.clauses ++ cs }, S.next) ∧
      (∀ c ∈ cs, ∀ l ∈ c, l / 2 = S.next ∨ ∃ k ∈ leaves, l / 2 = S1.var k) ∧
      ∀ a, Satisfies a cs ↔ a S.next = f.eval (Klut.args (fun l => a (S1.var l)) leaves) := by
  obtain ⟨cs, e, hs⟩ := C73_function f hf hn (makeLit S.next)
    (leaves.map fun l => makeLit ((prepares { S with next := S.next + 1 } leaves).var l)) (by rw [List.length_map, hl])
  rw [onFunction] at e
  cases hc : cnfCharacteristic f with
  | none => rw [hc] at e; cases e
  | some cubes =>
    rw [hc, Option.map_some, Option.some.injEq] at e
    refine ⟨cs, _, rfl, ?_, ?_, ?_⟩
    · rw [addFunc, if_neg (by omega), hc]
      dsimp only
      rw [List.take_of_length_le (by omega), e]
    · intro c hcm l hlm
      rw [← e] at hcm
      obtain ⟨q, _, rfl⟩ := List.mem_map.1 hcm
      have : l / 2 ∈ leaves.map (fun l => (prepares { S with next := S.next + 1 } leaves).var l) ++ [S.next] := by
        apply cubeClause_lits q
        rw [List.map_append, List.map_map]
        exact hlm
      rcases List.mem_append.1 this with h | h
      · obtain ⟨k, hk, e⟩ := List.mem_map.1 h
        exact Or.inr ⟨k, hk, e.symm⟩
      · exact Or.inl (List.mem_singleton.1 h)
    · intro a
      rw [hs a, litTrue_makeLit, litArgs_leaves a (fun l => a ((prepares { S with next := S.next + 1 } leaves).var l)) _ _ (fun _ _ => rfl)]
      cases a S.next <;> cases f.eval _ <;> simp

theorem addFunc_le {S T : State} {f : TT} {leaves : List Nat} {g : Nat} (e : addFunc S f leaves = some (T, g)) :
    Le S T ∧ g = S.next ∧ g < T.next := by
  rw [addFunc] at e
  split at e
  · cases e
  · split at e
    · cases e
    · cases e
      have h1 : Le S { S with next := S.next + 1 } := ⟨Nat.le_succ _, fun _ _ => rfl, fun _ h => h⟩
      have h2 := prepares_le leaves { S with next := S.next + 1 }
      have h3 := h1.trans h2
      refine ⟨⟨h3.next, h3.var, fun c hc => List.mem_append_left _ (h3.clauses c hc)⟩, rfl, ?_⟩
      exact h2.next

theorem Good.addFunc {v : Nat → Bool} {S T : State} {a : Nat → Bool} (h : Good v S a) {f : TT} (hf : f.WF) (hn : f.n < 32)
    {leaves : List Nat} (hl : leaves.length = f.n) {g : Nat} (e : addFunc S f leaves = some (T, g)) :
    ∃ b, Good v T b ∧ b g = f.eval (Klut.args v leaves) ∧ ∀ y, y < S.next → b y = a y := by
  obtain ⟨cs, S1, rfl, e', hlit, hs⟩ := addFunc_spec (S := S) hf hn hl
  rw [e'] at e
  cases e
  obtain ⟨b, hb, eb⟩ := (h.fresh (f.eval (Klut.args v leaves))).prepares leaves
  have hhas := prepares_has leaves { S with next := S.next + 1 } (Nat.le_succ_of_le h.next2)
  have hlt := (prepares_le leaves { S with next := S.next + 1 }).next
  have hg : b S.next = f.eval (Klut.args v leaves) := by
    rw [eb S.next (Nat.lt_succ_self _)]; exact if_pos rfl
  refine ⟨b, hb.add cs ?_ ?_, hg, ?_⟩
  · intro c hc l hlm
    rcases hlit c hc l hlm with e | ⟨k, hk, e⟩
    · rw [e]; exact hlt
    · rw [e]; exact (hb.var k (hhas k hk)).1
  · rw [hs b, hg]
    congr 1
    exact Klut.args_congr fun c hc => ((hb.var c (hhas c hc)).2).symm
  · intro y hy
    rw [eb y (Nat.lt_succ_of_lt hy)]
    exact if_neg (by omega)

theorem and_clauses (a : Nat → Bool) (x y n : Nat) (cx cy : Bool) :
    Satisfies a [[makeLit x cx, makeLit n true], [makeLit y cy, makeLit n true], [makeLit x (!cx), makeLit y (!cy), makeLit n]] ↔
      a n = (Bool.xor cx (a x) && Bool.xor cy (a y)) := by
  simp only [Satisfies, List.mem_cons, List.not_mem_nil, or_false, forall_eq_or_imp, forall_eq, exists_eq_or_imp, exists_eq_left,
    litTrue_makeLit]
  cases a x <;> cases a y <;> cases a n <;> cases cx <;> cases cy <;> simp

theorem differ_clauses (a : Nat → Bool) (x y : Nat) :
    Satisfies a [[makeLit x, makeLit y], [makeLit x true, makeLit y true]] ↔ a x ≠ a y := by
  simp only [Satisfies, List.mem_cons, List.not_mem_nil, or_false, forall_eq_or_imp, forall_eq, exists_eq_or_imp, exists_eq_left,
    litTrue_makeLit]
  cases a x <;> cases a y <;> simp

theorem equal_clauses (a : Nat → Bool) (x y : Nat) :
    Satisfies a [[makeLit x true, makeLit y], [makeLit x, makeLit y true]] ↔ a x = a y := by
  simp only [Satisfies, List.mem_cons, List.not_mem_nil, or_false, forall_eq_or_imp, forall_eq, exists_eq_or_imp, exists_eq_left,
    litTrue_makeLit]
  cases a x <;> cases a y <;> simp

theorem addAnd_le {S : State} (n : Nat) (x y : Sig) : Le S (addAnd S n x y) := by
  have h := ((prepare_le n).trans (prepare_le x.index)).trans (prepare_le (S := Checker.prepare (Checker.prepare S n) x.index) y.index)
  exact ⟨h.next, h.var, fun c hc => List.mem_append_left _ (h.clauses c hc)⟩

theorem addAnd_has {S : State} (h2 : 2 ≤ S.next) (n : Nat) (x y : Sig) :
    1 < (addAnd S n x y).var n ∧ 1 < (addAnd S n x y).var x.index ∧ 1 < (addAnd S n x y).var y.index := by
  have e1 := (prepare_le (S := S) n).next
  have e2 := (prepare_le (S := Checker.prepare S n) x.index).next
  have h3 := prepare_has (S := S) h2 n
  have h4 := prepare_has (S := Checker.prepare S n) (by omega) x.index
  have h5 := prepare_has (S := Checker.prepare (Checker.prepare S n) x.index) (by omega) y.index
  exact ⟨(prepare_le _).has ((prepare_le _).has h3), (prepare_le _).has h4, h5⟩

theorem Good.addAnd {v : Nat → Bool} {S : State} {a : Nat → Bool} (h : Good v S a) (n : Nat) (x y : Sig)
    (hv : v n = (x.val v && y.val v)) : ∃ b, Good v (addAnd S n x y) b ∧ ∀ z, z < S.next → b z = a z := by
  obtain ⟨b1, g1, e1⟩ := h.prepare n
  obtain ⟨b2, g2, e2⟩ := g1.prepare x.index
  obtain ⟨b3, g3, e3⟩ := g2.prepare y.index
  obtain ⟨h1, h2, h3⟩ := addAnd_has h.next2 n x y
  have l1 := g3.var n h1
  have l2 := g3.var x.index h2
  have l3 := g3.var y.index h3
  refine ⟨b3, g3.add _ ?_ ?_, ?_⟩
  · simp only [List.mem_cons, List.not_mem_nil, or_false, forall_eq_or_imp, forall_eq, makeLit_div]
    exact ⟨⟨l2.1, l1.1⟩, ⟨l3.1, l1.1⟩, l2.1, l3.1, l1.1⟩
  · rw [and_clauses, l1.2, l2.2, l3.2, hv]
    rfl
  · intro z hz
    have n1 := (prepare_le (S := S) n).next
    have n2 := (prepare_le (S := Checker.prepare S n) x.index).next
    rw [e3 z (by omega), e2 z (by omega), e1 z hz]

theorem addDiffer_le {S : State} (x y : Nat) : Le S (addDiffer S x y) :=
  ⟨Nat.le_succ _, fun _ _ => rfl, fun _ hc => List.mem_append_left _ hc⟩

theorem addEqual_le {S : State} (x y : Nat) : Le S (addEqual S x y) :=
  ⟨Nat.le_succ _, fun _ _ => rfl, fun _ hc => List.mem_append_left _ hc⟩

theorem Good.addDiffer {v : Nat → Bool} {S : State} {a : Nat → Bool} (h : Good v S a) {x y : Nat} (hx : x < S.next) (hy : y < S.next)
    (hd : a x ≠ a y) : ∃ b, Good v (addDiffer S x y) b ∧ ∀ z, z < S.next → b z = a z := by
  have g := h.fresh false
  refine ⟨_, g.add _ ?_ ?_, fun z hz => if_neg (by omega)⟩
  · simp only [List.mem_cons, List.not_mem_nil, or_false, forall_eq_or_imp, forall_eq, makeLit_div]
    omega
  · rw [differ_clauses, if_neg (by omega), if_neg (by omega)]; exact hd

theorem Good.addEqual {v : Nat → Bool} {S : State} {a : Nat → Bool} (h : Good v S a) {x y : Nat} (hx : x < S.next) (hy : y < S.next)
    (hd : a x = a y) : ∃ b, Good v (addEqual S x y) b ∧ ∀ z, z < S.next → b z = a z := by
  have g := h.fresh false
  refine ⟨_, g.add _ ?_ ?_, fun z hz => if_neg (by omega)⟩
  · simp only [List.mem_cons, List.not_mem_nil, or_false, forall_eq_or_imp, forall_eq, makeLit_div]
    omega
  · rw [equal_clauses, if_neg (by omega), if_neg (by omega)]; exact hd

/-! ### the cone -/

theorem mem_cone {C : Choice} {fuel root lim n : Nat} {ns : List Nat} (e : cone C fuel root lim = some ns) (h : n ∈ ns) :
    n < C.net.nodes.length := by
  rw [cone] at e
  cases hc : coneLoop C lim fuel [root] [] with
  | none => rw [hc] at e; cases e
  | some V =>
    rw [hc, Option.map_some, Option.some.injEq] at e
    subst e
    exact List.mem_range.1 (List.mem_filter.1 h).1

/-- the node of a network without registers that the loop does not skip -/
theorem gate_of {N : Aig} (hN : N.Built) (hpi : N.inputs.length = N.numPis) {n : Nat} (hn : n < N.nodes.length)
    (h : (N.isPi n || n == 0) = false) : ∃ a b, children N n = some (a, b) ∧ N.IsGate n a b := by
  have hw := hN.wf
  obtain ⟨nd, hnd⟩ : ∃ nd, N.nodes[n]? = some nd := ⟨_, List.getElem?_eq_getElem hn⟩
  simp only [Bool.or_eq_false_iff, beq_eq_false_iff_ne] at h
  have hni : n ∉ N.inputs := by
    intro hm
    obtain ⟨k, hk⟩ := List.getElem?_of_mem hm
    have hlt := (List.getElem?_eq_some_iff.1 hk).1
    have := (Validator.isPi_iff hw h.2).2 ⟨k, by omega, hk⟩
    rw [h.1] at this; cases this
  have hg : N.IsGate n nd.c0 nd.c1 := ⟨h.2, hni, nd, hnd, (hw.gate n nd hnd h.2 hni).2.2.2, rfl, rfl⟩
  have hci : N.isCi n = false := by
    have hl := hw.isGate_lt hg
    simp only [Aig.isCi, hnd, beq_eq_false_iff_ne]
    intro e; rw [e] at hl; omega
  exact ⟨_, _, by rw [children, hnd]; simp only [hci, Bool.false_eq_true, if_false], hg⟩

/-! ### choices -/

theorem members_spec {C : Choice} (hO : C.Ordered) (hS : C.Sound) {n : Nat} {ms : List Nat} (e : members C n = some ms) :
    ∀ m ∈ ms, m < n ∧ ∀ v, C.net.Models v → Bool.xor (v n) (C.net.phaseOf n) = Bool.xor (v m) (C.net.phaseOf m) := by
  intro m hm
  rw [members] at e
  split at e
  · cases e
  · rename_i q hq
    split at e
    · cases e; cases hm
    · have := Mapper.chain_spec hO hS _ q n ms hq e m hm
      exact ⟨this.1, this.2.2⟩

theorem collectChoices_spec {C : Choice} {P : Nat → Nat → Prop} (hP : ∀ n ms, members C n = some ms → ∀ m ∈ ms, P m n) :
    ∀ (l : List Nat) (m0 R : Nat → Option Nat), (∀ k r, m0 k = some r → P k r) → collectChoices C l m0 = some R →
      ∀ k r, R k = some r → P k r
  | [], m0, R, h0, e => by rw [collectChoices, Option.some.injEq] at e; subst e; exact h0
  | n :: l, m0, R, h0, e => by
    rw [collectChoices] at e
    split at e
    · cases e
    · rename_i ms hms
      refine collectChoices_spec hP l _ R ?_ e
      intro k r hk
      split at hk
      · rename_i hkm
        obtain rfl := Option.some.inj hk
        exact hP n ms hms k hkm
      · exact h0 k r hk

/-- the representative has the same function up to the phases -/
theorem reprMap_sound {C : Choice} (hO : C.Ordered) (hS : C.Sound) {R : Nat → Option Nat} (e : reprMap C = some R) {k r : Nat}
    (h : R k = some r) : ∀ v, C.net.Models v → Bool.xor (v r) (C.net.phaseOf r) = Bool.xor (v k) (C.net.phaseOf k) :=
  collectChoices_spec (P := fun k r => ∀ v, C.net.Models v → Bool.xor (v r) (C.net.phaseOf r) = Bool.xor (v k) (C.net.phaseOf k))
    (fun n ms hms m hm => (members_spec hO hS hms m hm).2) C.net.gates (fun _ => none) R (fun _ _ h => by cases h) e k r h

/-! ### the clauses of a cone -/

theorem addNodes_le {C : Choice} {R : Nat → Option Nat} : ∀ (l : List Nat) {S T : State}, addNodes C R l S = some T → Le S T
  | [], S, T, e => by rw [addNodes, Option.some.injEq] at e; subst e; exact Le.refl S
  | n :: l, S, T, e => by
    rw [addNodes] at e
    split at e
    · exact addNodes_le l e
    · split at e
      · cases e
      · rename_i a b _
        dsimp only at e
        split at e
        · exact (addAnd_le n a b).trans (addNodes_le l e)
        · rename_i r _
          have h1 := ((addAnd_le (S := S) n a b).trans (prepare_le n)).trans (prepare_le r)
          refine h1.trans (Le.trans ?_ (addNodes_le l e))
          split
          · exact addDiffer_le _ _
          · exact addEqual_le _ _

theorem Good.addNodes {C : Choice} (hN : C.net.Built) (hpi : C.net.inputs.length = C.net.numPis) {R : Nat → Option Nat}
    {v : Nat → Bool} (hv : C.net.Models v)
    (hR : ∀ k r, R k = some r → Bool.xor (v r) (C.net.phaseOf r) = Bool.xor (v k) (C.net.phaseOf k)) :
    ∀ (l : List Nat) {S T : State} {a : Nat → Bool}, (∀ n ∈ l, n < C.net.nodes.length) → Good v S a → addNodes C R l S = some T →
      ∃ b, Good v T b ∧ ∀ z, z < S.next → b z = a z
  | [], S, T, a, _, h, e => by rw [Checker.addNodes, Option.some.injEq] at e; subst e; exact ⟨a, h, fun _ _ => rfl⟩
  | n :: l, S, T, a, hl, h, e => by
    have hl' : ∀ k ∈ l, k < C.net.nodes.length := fun k hk => hl k (List.mem_cons_of_mem _ hk)
    rw [Checker.addNodes] at e
    split at e
    · exact Good.addNodes hN hpi hv hR l hl' h e
    · rename_i hc
      obtain ⟨x, y, ech, hg⟩ := gate_of hN hpi (hl n (by simp)) (by simpa using hc)
      rw [ech] at e
      dsimp only at e
      obtain ⟨b1, g1, e1⟩ := h.addAnd n x y (hv.gate n x y hg)
      have l1 := (addAnd_le (S := S) n x y).next
      split at e
      · obtain ⟨b2, g2, e2⟩ := Good.addNodes hN hpi hv hR l hl' g1 e
        exact ⟨b2, g2, fun z hz => by rw [e2 z (by omega), e1 z hz]⟩
      · rename_i r hr
        obtain ⟨b2, g2, e2⟩ := g1.prepare n
        obtain ⟨b3, g3, e3⟩ := g2.prepare r
        have l2 := (prepare_le (S := Checker.addAnd S n x y) n).next
        have l3 := (prepare_le (S := Checker.prepare (Checker.addAnd S n x y) n) r).next
        have hn1 := g3.var n ((prepare_le r).has (prepare_has g1.next2 n))
        have hr1 := g3.var r (prepare_has g2.next2 r)
        have hx := hR n r hr
        generalize Checker.prepare (Checker.prepare (Checker.addAnd S n x y) n) r = U at e g3 e3 l3 hn1 hr1
        have key : ∃ b4, Good v (if Bool.xor (C.net.phaseOf n) (C.net.phaseOf r) then Checker.addDiffer U (U.var n) (U.var r)
            else Checker.addEqual U (U.var n) (U.var r)) b4 ∧ ∀ z, z < U.next → b4 z = b3 z := by
          split
          · rename_i hp
            refine g3.addDiffer hn1.1 hr1.1 ?_
            rw [hn1.2, hr1.2]
            revert hp hx
            cases v n <;> cases v r <;> cases C.net.phaseOf n <;> cases C.net.phaseOf r <;> simp
          · rename_i hp
            refine g3.addEqual hn1.1 hr1.1 ?_
            rw [hn1.2, hr1.2]
            revert hp hx
            cases v n <;> cases v r <;> cases C.net.phaseOf n <;> cases C.net.phaseOf r <;> simp
        obtain ⟨b4, g4, e4⟩ := key
        obtain ⟨b5, g5, e5⟩ := Good.addNodes hN hpi hv hR l hl' g4 e
        refine ⟨b5, g5, fun z hz => ?_⟩
        rw [e5 z ?_, e4 z (by omega), e3 z (by omega), e2 z (by omega), e1 z hz]
        split
        · exact Nat.lt_succ_of_lt (b := U.next) (by omega)
        · exact Nat.lt_succ_of_lt (b := U.next) (by omega)

theorem addCone_le {C : Choice} {R : Nat → Option Nat} {fuel root : Nat} {S T : State} {leaves : List Nat} {g : Nat}
    (e : addCone C R fuel S root leaves = some (T, g)) : Le S T ∧ g = T.var root := by
  rw [addCone] at e
  split at e
  · cases e
  · split at e
    · cases e
    · obtain ⟨S1, h1, h2⟩ := Option.map_eq_some_iff.1 e
      cases h2
      exact ⟨((prepare_le root).trans (prepares_le leaves _)).trans (addNodes_le _ h1), rfl⟩

theorem addCone_has {C : Choice} {R : Nat → Option Nat} {fuel root : Nat} {S T : State} {leaves : List Nat} {g : Nat} (h2 : 2 ≤ S.next)
    (e : addCone C R fuel S root leaves = some (T, g)) : 1 < T.var root ∧ ∀ l ∈ leaves, 1 < T.var l := by
  rw [addCone] at e
  split at e
  · cases e
  · split at e
    · cases e
    · obtain ⟨S1, h1, h3⟩ := Option.map_eq_some_iff.1 e
      cases h3
      have := (prepare_le (S := S) root).next
      exact ⟨(addNodes_le _ h1).has ((prepares_le leaves _).has (prepare_has h2 root)),
        fun l hl => (addNodes_le _ h1).has (prepares_has leaves _ (by omega) l hl)⟩

theorem Good.addCone {C : Choice} (hN : C.net.Built) (hpi : C.net.inputs.length = C.net.numPis) {R : Nat → Option Nat}
    {v : Nat → Bool} (hv : C.net.Models v)
    (hR : ∀ k r, R k = some r → Bool.xor (v r) (C.net.phaseOf r) = Bool.xor (v k) (C.net.phaseOf k))
    {fuel root : Nat} {S T : State} {a : Nat → Bool} {leaves : List Nat} {g : Nat} (h : Good v S a)
    (e : addCone C R fuel S root leaves = some (T, g)) :
    ∃ b, Good v T b ∧ g < T.next ∧ b g = v root ∧ ∀ z, z < S.next → b z = a z := by
  have hhas := addCone_has h.next2 e
  obtain ⟨_, rfl⟩ := addCone_le e
  rw [Checker.addCone] at e
  split at e
  · cases e
  · split at e
    · cases e
    · rename_i ns hns
      obtain ⟨S1, h1, h3⟩ := Option.map_eq_some_iff.1 e
      cases h3
      obtain ⟨b1, g1, e1⟩ := h.prepare root
      obtain ⟨b2, g2, e2⟩ := g1.prepares leaves
      obtain ⟨b3, g3, e3⟩ := Good.addNodes hN hpi hv hR ns (fun n hn => mem_cone hns hn) g2 h1
      have l1 := (prepare_le (S := S) root).next
      have l2 := (prepares_le leaves (Checker.prepare S root)).next
      have := g3.var root hhas.1
      exact ⟨b3, g3, this.1, this.2, fun z hz => by rw [e3 z (by omega), e2 z (by omega), e1 z hz]⟩

theorem recycle_good (v : Nat → Bool) : Good v recycle (fun _ => false) := by
  refine ⟨Nat.le_refl _, ?_, ?_, ?_⟩
  · intro n hn
    simp only [recycle] at hn
    split at hn <;> omega
  · intro c hc; cases hc
  · intro c hc; cases hc

/-- If the clauses of a cell cannot be satisfied, the cell has the value of its root. -/
theorem cell_sound {C : Choice} (hN : C.net.Built) (hpi : C.net.inputs.length = C.net.numPis) {M : Mapping} {R : Nat → Option Nat}
    {v : Nat → Bool} (hv : C.net.Models v)
    (hR : ∀ k r, R k = some r → Bool.xor (v r) (C.net.phaseOf r) = Bool.xor (v k) (C.net.phaseOf k))
    {fuel root : Nat} {cs : List (List Nat)} (e : cellClauses C M R fuel root = some cs) (hs : ¬ ∃ a, Satisfies a cs)
    {f : TT} {leaves : List Nat} (hf : M.cellFunction root = some f) (hl : M.cellFanins root = some leaves) (hw : f.WF) (hn : f.n < 32)
    (hlen : leaves.length = f.n) : v root = f.eval (Klut.args v leaves) := by
  rw [cellClauses, hf, hl] at e
  dsimp only at e
  split at e
  · cases e
  · rename_i S1 gold e1
    obtain ⟨⟨S2, gate⟩, e2, e3⟩ := Option.map_eq_some_iff.1 e
    dsimp only at e3
    obtain ⟨b0, g0, _⟩ := (recycle_good v).prepares leaves
    obtain ⟨b1, g1, hg1, _⟩ := g0.addFunc hw hn hlen e1
    obtain ⟨b2, g2, lt2, hg2, ag⟩ := Good.addCone hN hpi hv hR g1 e2
    have hgold := addFunc_le e1
    have hlt := (addCone_le e2).1.next
    by_contra hne
    obtain ⟨b3, g3, _⟩ := g2.addDiffer (x := gold) (y := gate) (by omega) lt2 (by
      rw [hg2, ag gold hgold.2.2, hg1]
      exact fun h => hne h.symm)
    rw [← e3] at hs
    exact hs ⟨b3, g3.sat⟩

/-! ### what satisfied clauses mean -/

theorem sat_mono {a : Nat → Bool} {S T : State} (h : Le S T) (hs : Satisfies a T.clauses) : Satisfies a S.clauses :=
  fun c hc => hs c (h.clauses c hc)

theorem func_value {S T : State} {f : TT} (hf : f.WF) (hn : f.n < 32) {leaves : List Nat} (hl : leaves.length = f.n) {g : Nat}
    (e : addFunc S f leaves = some (T, g)) {a : Nat → Bool} (hs : Satisfies a T.clauses) :
    a g = f.eval (Klut.args (fun l => a (T.var l)) leaves) := by
  obtain ⟨cs, S1, rfl, e', _, h⟩ := addFunc_spec (S := S) hf hn hl
  rw [e'] at e
  cases e
  exact (h a).1 (((satisfies_append a _ _).1 hs).2)

theorem addFunc_has {S T : State} {f : TT} {leaves : List Nat} {g : Nat} (h2 : 2 ≤ S.next) (e : addFunc S f leaves = some (T, g)) :
    ∀ l ∈ leaves, 1 < T.var l := by
  rw [addFunc] at e
  split at e
  · cases e
  · split at e
    · cases e
    · cases e
      exact prepares_has leaves _ (Nat.le_succ_of_le h2)

/-- the clauses of one node of the cone -/
theorem addNodes_facts {C : Choice} {R : Nat → Option Nat} : ∀ (l : List Nat) {S T : State}, 2 ≤ S.next → addNodes C R l S = some T →
    ∀ n ∈ l, (C.net.isPi n || n == 0) = false → ∀ x y, children C.net n = some (x, y) → ∀ a, Satisfies a T.clauses →
      a (T.var n) = (Bool.xor x.compl (a (T.var x.index)) && Bool.xor y.compl (a (T.var y.index))) ∧
      ∀ r, R n = some r → Bool.xor (a (T.var n)) (C.net.phaseOf n) = Bool.xor (a (T.var r)) (C.net.phaseOf r)
  | [], _, _, _, _, _, hn => by cases hn
  | k :: l, S, T, h2, e, n, hn => by
    intro hc x y hxy a hs
    rw [addNodes] at e
    rcases List.mem_cons.1 hn with rfl | hn'
    · rw [if_neg (by simp [hc]), hxy] at e
      dsimp only at e
      have h3 := Nat.le_trans h2 (addAnd_le (S := S) n x y).next
      obtain ⟨p1, p2, p3⟩ := addAnd_has h2 n x y
      have hle : Le (addAnd S n x y) T ∧ ∀ r, R n = some r →
          Bool.xor (a (T.var n)) (C.net.phaseOf n) = Bool.xor (a (T.var r)) (C.net.phaseOf r) := by
        split at e
        · rename_i hr
          exact ⟨addNodes_le l e, fun r h => by rw [hr] at h; cases h⟩
        · rename_i r hr
          have h4 := Nat.le_trans h3 (prepare_le (S := addAnd S n x y) n).next
          have q1 := (prepare_le (S := prepare (addAnd S n x y) n) r).has (prepare_has h3 n)
          have q2 := prepare_has (S := prepare (addAnd S n x y) n) h4 r
          have hU := (prepare_le (S := addAnd S n x y) n).trans (prepare_le (S := prepare (addAnd S n x y) n) r)
          generalize prepare (prepare (addAnd S n x y) n) r = U at e q1 q2 hU
          have hT := addNodes_le l e
          have hs' := sat_mono hT hs
          split at hT
          · rename_i hp
            rw [if_pos hp] at hs'
            refine ⟨hU.trans ((addDiffer_le _ _).trans hT), fun r' h => ?_⟩
            rw [hr, Option.some.injEq] at h
            subst h
            have := (differ_clauses a _ _).1 (((satisfies_append a _ _).1 hs').2)
            rw [hT.var n q1, hT.var r q2]
            show Bool.xor (a (U.var n)) _ = Bool.xor (a (U.var r)) _
            revert this hp
            cases a (U.var n) <;> cases a (U.var r) <;> cases C.net.phaseOf n <;> cases C.net.phaseOf r <;> simp
          · rename_i hp
            rw [if_neg hp] at hs'
            refine ⟨hU.trans ((addEqual_le _ _).trans hT), fun r' h => ?_⟩
            rw [hr, Option.some.injEq] at h
            subst h
            have := (equal_clauses a _ _).1 (((satisfies_append a _ _).1 hs').2)
            rw [hT.var n q1, hT.var r q2]
            show Bool.xor (a (U.var n)) _ = Bool.xor (a (U.var r)) _
            revert this hp
            cases a (U.var n) <;> cases a (U.var r) <;> cases C.net.phaseOf n <;> cases C.net.phaseOf r <;> simp
      refine ⟨?_, hle.2⟩
      have := (and_clauses a _ _ _ _ _).1 (((satisfies_append a _ _).1 (sat_mono hle.1 hs)).2)
      rw [hle.1.var n p1, hle.1.var _ p2, hle.1.var _ p3]
      exact this
    · split at e
      · exact addNodes_facts l h2 e n hn' hc x y hxy a hs
      · split at e
        · cases e
        · rename_i x' y' _
          dsimp only at e
          have h3 := Nat.le_trans h2 (addAnd_le (S := S) k x' y').next
          split at e
          · exact addNodes_facts l h3 e n hn' hc x y hxy a hs
          · rename_i r _
            refine addNodes_facts l ?_ e n hn' hc x y hxy a hs
            have h4 := Nat.le_trans h3 (prepare_le (S := addAnd S k x' y') k).next
            have h5 := Nat.le_trans h4 (prepare_le (S := prepare (addAnd S k x' y') k) r).next
            split
            · exact Nat.le_succ_of_le h5
            · exact Nat.le_succ_of_le h5

/-! ### the cone is closed -/

/-- what has been queued for the visited nodes -/
def Closed (C : Choice) (lim : Nat) (q V : List Nat) : Prop :=
  ∀ n ∈ V, n < C.net.nodes.length ∧ ∃ ms, members C n = some ms ∧ (∀ m ∈ ms, m ∈ V ∨ m ∈ q) ∧
    ((∀ k ∈ RefDeref.aigKids C.net n, lim ≤ k) → ∀ k ∈ RefDeref.aigKids C.net n, k ∈ V ∨ k ∈ q)

theorem coneLoop_closed {C : Choice} {lim : Nat} : ∀ (fuel : Nat) (q V W : List Nat), Closed C lim q V →
    coneLoop C lim fuel q V = some W → Closed C lim [] W ∧ (∀ n ∈ V, n ∈ W) ∧ ∀ n ∈ q, n ∈ W
  | fuel, [], V, W, h, e => by
    have : coneLoop C lim fuel [] V = some V := by cases fuel <;> rfl
    rw [this, Option.some.injEq] at e
    subst e
    exact ⟨h, fun _ h => h, fun _ h => by cases h⟩
  | 0, _ :: _, _, _, _, e => by cases e
  | fuel + 1, n :: q, V, W, h, e => by
    rw [coneLoop] at e
    split at e
    · rename_i hv
      have hc : Closed C lim q V := by
        intro k hk
        obtain ⟨h1, ms, h2, h3, h4⟩ := h k hk
        have fix : ∀ m, m ∈ V ∨ m ∈ n :: q → m ∈ V ∨ m ∈ q := by
          rintro m (hm | hm)
          · exact Or.inl hm
          · rcases List.mem_cons.1 hm with rfl | hm
            exacts [Or.inl hv, Or.inr hm]
        exact ⟨h1, ms, h2, fun m hm => fix m (h3 m hm), fun hl k hk => fix k (h4 hl k hk)⟩
      obtain ⟨r1, r2, r3⟩ := coneLoop_closed fuel q V W hc e
      refine ⟨r1, r2, fun k hk => ?_⟩
      rcases List.mem_cons.1 hk with rfl | hk
      exacts [r2 _ hv, r3 k hk]
    · split at e
      · rename_i hn
        split at e
        · cases e
        · rename_i ms hms
          dsimp only at e
          have hc : Closed C lim (q ++ ms ++ if (RefDeref.aigKids C.net n).any (decide <| · < lim) then [] else RefDeref.aigKids C.net n)
              (n :: V) := by
            intro k hk
            rcases List.mem_cons.1 hk with rfl | hk
            · refine ⟨hn, ms, hms, fun m hm => Or.inr ?_, fun hl m hm => Or.inr ?_⟩
              · simp [hm]
              · have : (RefDeref.aigKids C.net k).any (decide <| · < lim) = false := by
                  rw [List.any_eq_false]
                  intro j hj
                  have := hl j hj
                  simp; omega
                rw [this]
                simp [hm]
            · obtain ⟨h1, ms', h2, h3, h4⟩ := h k hk
              have fix : ∀ m, m ∈ V ∨ m ∈ n :: q → m ∈ n :: V ∨ m ∈ q ++ ms ++
                  if (RefDeref.aigKids C.net n).any (decide <| · < lim) then [] else RefDeref.aigKids C.net n := by
                rintro m (hm | hm)
                · exact Or.inl (List.mem_cons_of_mem _ hm)
                · rcases List.mem_cons.1 hm with rfl | hm
                  · exact Or.inl List.mem_cons_self
                  · exact Or.inr (by simp [hm])
              exact ⟨h1, ms', h2, fun m hm => fix m (h3 m hm), fun hl k hk => fix k (h4 hl k hk)⟩
          obtain ⟨r1, r2, r3⟩ := coneLoop_closed fuel _ _ W hc e
          refine ⟨r1, fun k hk => r2 k (List.mem_cons_of_mem _ hk), fun k hk => ?_⟩
          rcases List.mem_cons.1 hk with rfl | hk
          · exact r2 _ List.mem_cons_self
          · exact r3 k (by simp [hk])
      · cases e

/-- the collected cone contains the root, the classes of its nodes, and the fanins of its nodes unless one of them is
below the limit -/
theorem cone_spec {C : Choice} {fuel root lim : Nat} {ns : List Nat} (e : cone C fuel root lim = some ns) :
    root ∈ ns ∧ ∀ n ∈ ns, ∃ ms, members C n = some ms ∧ (∀ m ∈ ms, m ∈ ns) ∧
      ((∀ k ∈ RefDeref.aigKids C.net n, lim ≤ k) → ∀ k ∈ RefDeref.aigKids C.net n, k ∈ ns) := by
  rw [cone] at e
  obtain ⟨W, hW, rfl⟩ := Option.map_eq_some_iff.1 e
  obtain ⟨h1, _, h3⟩ := coneLoop_closed fuel [root] [] W (fun n hn => by cases hn) hW
  have hm : ∀ n, n ∈ W ↔ n ∈ (List.range C.net.nodes.length).filter (decide <| · ∈ W) := by
    intro n
    rw [List.mem_filter, List.mem_range, decide_eq_true_iff]
    exact ⟨fun h => ⟨(h1 n h).1, h⟩, fun h => h.2⟩
  refine ⟨(hm root).1 (h3 root (by simp)), fun n hn => ?_⟩
  obtain ⟨_, ms, h4, h5, h6⟩ := h1 n ((hm n).2 hn)
  refine ⟨ms, h4, fun m hmm => (hm m).1 ?_, fun hl k hk => (hm k).1 ?_⟩
  · rcases h5 m hmm with h | h
    exacts [h, by cases h]
  · rcases h6 hl k hk with h | h
    exacts [h, by cases h]

/-! ### choices and their representatives -/

theorem mem_chain {C : Choice} : ∀ (f : Nat) (e : Option Nat) (n : Nat) (l : List Nat), C.equivs[n]? = some e → C.chain f e = some l →
    ∀ m, m ∈ l ↔ Behind C n m := by
  intro f
  induction f with
  | zero =>
    intro e n l he hl m
    cases e with
    | none =>
      rw [Choice.chain] at hl
      obtain rfl := Option.some.inj hl
      constructor
      · intro h; cases h
      · intro h; cases h <;> simp_all
    | some k => rw [Choice.chain] at hl; simp at hl
  | succ f ih =>
    intro e n l he hl m
    cases e with
    | none =>
      rw [Choice.chain] at hl
      obtain rfl := Option.some.inj hl
      constructor
      · intro h; cases h
      · intro h; cases h <;> simp_all
    | some k =>
      rw [Choice.chain] at hl
      split at hl
      · simp at hl
      · rename_i e' he'
        obtain ⟨l', hl', rfl⟩ := Option.map_eq_some_iff.1 hl
        rw [List.mem_cons, ih e' k l' he' hl' m]
        constructor
        · rintro (rfl | h)
          exacts [.next he, .more he h]
        · intro h
          cases h with
          | next h1 => rw [he] at h1; cases h1; exact Or.inl rfl
          | more h1 h2 => rw [he] at h1; cases h1; exact Or.inr h2

theorem mem_members {C : Choice} {n : Nat} {ms : List Nat} (e : members C n = some ms) (m : Nat) :
    m ∈ ms ↔ C.net.fanoutSize n ≠ 0 ∧ Behind C n m := by
  rw [members] at e
  split at e
  · cases e
  · rename_i q hq
    split at e
    · rename_i h0
      cases e
      simp [h0]
    · rename_i h0
      rw [mem_chain _ q n ms hq e m]
      simp [h0]

theorem collectChoices_keep {C : Choice} {k : Nat} : ∀ (l : List Nat) (m0 R : Nat → Option Nat), collectChoices C l m0 = some R →
    (∀ n ∈ l, ∀ ms, members C n = some ms → k ∉ ms) → R k = m0 k
  | [], m0, R, e, _ => by rw [collectChoices, Option.some.injEq] at e; subst e; rfl
  | n :: l, m0, R, e, h => by
    rw [collectChoices] at e
    split at e
    · cases e
    · rename_i ms hms
      rw [collectChoices_keep l _ R e fun n hn => h n (List.mem_cons_of_mem _ hn), if_neg (h n (by simp) ms hms)]

theorem collectChoices_last {C : Choice} {k n : Nat} : ∀ (l : List Nat) (m0 R : Nat → Option Nat), l.Pairwise (· < ·) →
    collectChoices C l m0 = some R → n ∈ l → (∀ ms, members C n = some ms → k ∈ ms) →
    (∀ g ∈ l, n < g → ∀ ms, members C g = some ms → k ∉ ms) → R k = some n
  | [], _, _, _, _, h, _, _ => by cases h
  | g :: l, m0, R, hp, e, hn, hk, hl => by
    rw [List.pairwise_cons] at hp
    rw [collectChoices] at e
    split at e
    · cases e
    · rename_i ms hms
      rcases List.mem_cons.1 hn with rfl | hn'
      · rw [collectChoices_keep l _ R e fun g hg => hl g (List.mem_cons_of_mem _ hg) (hp.1 g hg), if_pos (hk ms hms)]
      · exact collectChoices_last l _ R hp.2 e hn' hk fun g hg => hl g (List.mem_cons_of_mem _ hg)

theorem reprMap_choice {C : Choice} (hN : C.net.Built) {R : Nat → Option Nat} (e : reprMap C = some R) {m n : Nat} (h : ChoiceOf C m n) :
    R m = some n := by
  refine collectChoices_last C.net.gates (fun _ => none) R (WFgates_pairwise C.net) e ((hN.wf.mem_gates n).2 h.rep) ?_ ?_
  · intro ms hms; exact (mem_members hms m).2 ⟨h.used, h.behind⟩
  · intro g hg hlt ms hms hm
    obtain ⟨h1, h2⟩ := (mem_members hms m).1 hm
    have := h.last g ((hN.wf.mem_gates g).1 hg) h1 h2
    omega

theorem Behind.lt {C : Choice} (hO : C.Ordered) {n m : Nat} (h : Behind C n m) : m < n := by
  induction h with
  | next h => exact (hO.lt _ _ h).2
  | more h _ ih => have := (hO.lt _ _ h).2; omega

theorem Val.ge {C : Choice} (hN : C.net.Built) (hO : C.Ordered) {w : Nat → Bool} {leaves : List Nat} {lim : Nat}
    (hl : ∀ l ∈ leaves, lim ≤ l) {n : Nat} {b : Bool} (h : Val C w leaves n b) : lim ≤ n := by
  induction h with
  | leaf h => exact hl _ h
  | gate g _ _ ih _ => have := hN.wf.isGate_lt g; omega
  | choice h _ ih => have := h.behind.lt hO; omega

theorem gate_kids {N : Aig} (hN : N.Built) {n : Nat} {a b : Sig} (g : N.IsGate n a b) :
    RefDeref.aigKids N n = [a.index, b.index] ∧ (N.isPi n || n == 0) = false ∧ children N n = some (a, b) := by
  have hl := hN.wf.isGate_lt g
  obtain ⟨h0, h1, nd, hn, hd, rfl, rfl⟩ := g
  have hci : N.isCi n = false := by
    simp only [Aig.isCi, hn, beq_eq_false_iff_ne]
    intro e; rw [e] at hl; omega
  have hpi : N.isPi n = false := by
    simp only [Aig.isCi, hn] at hci
    simp only [Aig.isPi, hn, hci, Bool.false_and]
  refine ⟨?_, by simp [hpi, h0], ?_⟩
  · rw [RefDeref.aigKids, if_neg (by simp [h0, hci]), hn]
  · rw [children, hn]; simp only [hci, Bool.false_eq_true, if_false]

/-- The clauses of a cone give every node derived from the leaves its value. -/
theorem cone_value {C : Choice} (hN : C.net.Built) (hO : C.Ordered) {R : Nat → Option Nat} (eR : reprMap C = some R)
    {fuel root : Nat} {S T : State} {leaves : List Nat} {g : Nat} (h2 : 2 ≤ S.next)
    (e : addCone C R fuel S root leaves = some (T, g)) {a : Nat → Bool} (hs : Satisfies a T.clauses) {b : Bool}
    (hv : Val C (fun n => a (T.var n)) leaves root b) : a (T.var root) = b := by
  rw [addCone] at e
  split at e
  · cases e
  · rename_i lim hlim
    have hl : ∀ l ∈ leaves, lim ≤ l := by
      intro l hl
      rw [List.min?_eq_some_iff] at hlim
      exact hlim.2 l hl
    split at e
    · cases e
    · rename_i ns hns
      obtain ⟨S1, e1, e2⟩ := Option.map_eq_some_iff.1 e
      cases e2
      obtain ⟨hroot, hcl⟩ := cone_spec hns
      have h3 : 2 ≤ (prepares (prepare S root) leaves).next :=
        Nat.le_trans h2 (Nat.le_trans (prepare_le root).next (prepares_le leaves _).next)
      have hf := addNodes_facts ns h3 e1
      suffices H : ∀ n b, Val C (fun n => a (T.var n)) leaves n b → n ∈ ns → a (T.var n) = b from H root b hv hroot
      intro n b hv
      induction hv with
      | leaf _ => intro _; rfl
      | @gate n x y p q gt h1 h2 i1 i2 =>
        intro hn
        obtain ⟨hk, hsk, hch⟩ := gate_kids hN gt
        obtain ⟨ms, _, _, hin⟩ := hcl n hn
        have hall : ∀ k ∈ RefDeref.aigKids C.net n, k ∈ ns := hin (by
          rw [hk]
          intro k hk'
          simp only [List.mem_cons, List.not_mem_nil, or_false] at hk'
          rcases hk' with rfl | rfl
          exacts [h1.ge hN hO hl, h2.ge hN hO hl])
        rw [(hf n hn hsk x y hch a hs).1, i1 (hall _ (by rw [hk]; simp)), i2 (hall _ (by rw [hk]; simp))]
      | @choice n m p hc h1 i1 =>
        intro hn
        obtain ⟨ms, hms, hmem, _⟩ := hcl n hn
        have hm := hmem m ((mem_members hms m).2 ⟨hc.used, hc.behind⟩)
        obtain ⟨x, y, gt⟩ := hc.gate
        obtain ⟨_, hsk, hch⟩ := gate_kids hN gt
        have := (hf m hm hsk x y hch a hs).2 n (reprMap_choice hN eR hc)
        rw [i1 hm] at this
        rw [this]
        cases a (T.var n) <;> cases C.net.phaseOf n <;> rfl

/-- The clauses of a cell that is right by its structure cannot be satisfied. -/
theorem cell_complete {C : Choice} (hN : C.net.Built) (hO : C.Ordered) {M : Mapping} {R : Nat → Option Nat} (eR : reprMap C = some R)
    {fuel root : Nat} {cs : List (List Nat)} (e : cellClauses C M R fuel root = some cs)
    {f : TT} {leaves : List Nat} (hf : M.cellFunction root = some f) (hl : M.cellFanins root = some leaves) (hw : f.WF) (hn : f.n < 32)
    (hlen : leaves.length = f.n) (hv : ∀ w, Val C w leaves root (f.eval (Klut.args w leaves))) : ¬ ∃ a, Satisfies a cs := by
  rintro ⟨a, hs⟩
  rw [cellClauses, hf, hl] at e
  dsimp only at e
  split at e
  · cases e
  · rename_i S1 gold e1
    obtain ⟨⟨S2, gate⟩, e2, e3⟩ := Option.map_eq_some_iff.1 e
    dsimp only at e3
    rw [← e3] at hs
    have n0 : 2 ≤ (prepares recycle leaves).next := (prepares_le leaves recycle).next
    have l1 := (addFunc_le e1).1
    have n1 := Nat.le_trans n0 l1.next
    obtain ⟨l2, rfl⟩ := addCone_le e2
    have hs2 := ((satisfies_append a _ _).1 hs).1
    have hd := (differ_clauses a _ _).1 (((satisfies_append a _ _).1 hs).2)
    have v1 := func_value hw hn hlen e1 (sat_mono l2 hs2)
    have v2 := cone_value hN hO eR n1 e2 hs2 (hv _)
    apply hd
    rw [v1, v2]
    congr 1
    refine Klut.args_congr fun c hc => ?_
    rw [l2.var c (addFunc_has n0 e1 c hc)]

theorem rootLoop_le {C : Choice} {M : Mapping} {R : Nat → Option Nat} {cf : Nat} : ∀ (fuel : Nat) (q : List Nat) {S T : State},
    rootLoop C M R cf fuel q S = some T → Le S T
  | fuel, [], S, T, e => by
    have : rootLoop C M R cf fuel [] S = some S := by cases fuel <;> rfl
    rw [this, Option.some.injEq] at e
    subst e
    exact Le.refl S
  | 0, _ :: _, _, _, e => by cases e
  | fuel + 1, n :: q, S, T, e => by
    rw [rootLoop] at e
    split at e
    · exact rootLoop_le fuel q e
    · split at e
      · rename_i f leaves _ _
        split at e
        · cases e
        · rename_i S1 gate e1
          split at e
          · cases e
          · rename_i S2 gold e2
            exact (prepares_le leaves S).trans ((addCone_le e1).1.trans ((addFunc_le e2).1.trans
              ((addDiffer_le _ _).trans (rootLoop_le fuel _ e))))
      · cases e

/-- The clauses for an output cannot be satisfied if only the cell of the output is right by its structure. -/
theorem root_complete {C : Choice} (hN : C.net.Built) (hO : C.Ordered) {M : Mapping} {R : Nat → Option Nat} (eR : reprMap C = some R)
    {cf fuel root : Nat} {S T : State} (h2 : 2 ≤ S.next) (e : rootLoop C M R cf fuel [root] S = some T) (hr : ∃ a b, C.net.IsGate root a b)
    {f : TT} {leaves : List Nat} (hf : M.cellFunction root = some f) (hl : M.cellFanins root = some leaves) (hw : f.WF) (hn : f.n < 32)
    (hlen : leaves.length = f.n) (hv : ∀ w, Val C w leaves root (f.eval (Klut.args w leaves))) : ¬ ∃ a, Satisfies a T.clauses := by
  rintro ⟨a, hs⟩
  obtain ⟨x, y, gt⟩ := hr
  cases fuel with
  | zero => cases e
  | succ fuel =>
    rw [rootLoop, if_neg (by rw [(gate_kids hN gt).2.1]; simp), hf, hl] at e
    dsimp only at e
    split at e
    · cases e
    · rename_i S1 gate e1
      split at e
      · cases e
      · rename_i S2 gold e2
        have hsd := sat_mono (rootLoop_le fuel _ e) hs
        have n0 := Nat.le_trans h2 (prepares_le leaves S).next
        obtain ⟨l1, rfl⟩ := addCone_le e1
        have l2 := (addFunc_le e2).1
        have hs2 := ((satisfies_append a _ _).1 hsd).1
        have hd := (differ_clauses a _ _).1 (((satisfies_append a _ _).1 hsd).2)
        have v1 := cone_value hN hO eR n0 e1 (sat_mono l2 hs2) (hv _)
        have v2 := func_value hw hn hlen e2 hs2
        apply hd
        rw [v1, v2]
        congr 1
        refine Klut.args_congr fun c hc => ?_
        rw [l2.var c ((addCone_has n0 e1).2 c hc)]

theorem addCone_lt {C : Choice} {R : Nat → Option Nat} {fuel root : Nat} {S T : State} {leaves : List Nat} {g : Nat}
    (e : addCone C R fuel S root leaves = some (T, g)) : root < C.net.nodes.length := by
  rw [addCone] at e
  split at e
  · cases e
  · split at e
    · cases e
    · rename_i ns hns
      exact mem_cone hns (cone_spec hns).1

/-- If all cells that are met have wrong values, the clauses for an output can be satisfied. -/
theorem rootLoop_good {C : Choice} (hN : C.net.Built) (hpi : C.net.inputs.length = C.net.numPis) {M : Mapping} {R : Nat → Option Nat}
    {v : Nat → Bool} (hv : C.net.Models v)
    (hR : ∀ k r, R k = some r → Bool.xor (v r) (C.net.phaseOf r) = Bool.xor (v k) (C.net.phaseOf k)) {cf o : Nat}
    (hw : ∀ m, Reach C.net M o m → (∃ a b, C.net.IsGate m a b) → Cell M m ∧ ∀ cs f, M.cellFanins m = some cs → M.cellFunction m = some f →
      v m ≠ f.eval (Klut.args v cs)) :
    ∀ (fuel : Nat) (q : List Nat) {S T : State} {a : Nat → Bool}, Good v S a → (∀ n ∈ q, Reach C.net M o n) →
      rootLoop C M R cf fuel q S = some T → ∃ b, Good v T b
  | fuel, [], S, T, a, h, _, e => by
    have : rootLoop C M R cf fuel [] S = some S := by cases fuel <;> rfl
    rw [this, Option.some.injEq] at e
    subst e
    exact ⟨a, h⟩
  | 0, _ :: _, _, _, _, _, _, e => by cases e
  | fuel + 1, n :: q, S, T, a, h, hq, e => by
    have hq' : ∀ k ∈ q, Reach C.net M o k := fun k hk => hq k (List.mem_cons_of_mem _ hk)
    rw [rootLoop] at e
    split at e
    · exact rootLoop_good hN hpi hv hR hw fuel q h hq' e
    · rename_i hc
      split at e
      · rename_i f leaves hf hl
        split at e
        · cases e
        · rename_i S1 gate e1
          split at e
          · cases e
          · rename_i S2 gold e2
            obtain ⟨_, _, _, hg⟩ := gate_of hN hpi (addCone_lt e1) (by simpa using hc)
            obtain ⟨⟨cs', f', h1, h2, h3, h4, h5, _⟩, hne⟩ := hw n (hq n (by simp)) ⟨_, _, hg⟩
            obtain rfl := Option.some.inj (hl.symm.trans h1)
            obtain rfl := Option.some.inj (hf.symm.trans h2)
            obtain ⟨b0, g0, _⟩ := h.prepares leaves
            obtain ⟨b1, g1, lt1, hg1, _⟩ := Good.addCone hN hpi hv hR g0 e1
            obtain ⟨b2, g2, hg2, ag⟩ := g1.addFunc h3 h5 h4.symm e2
            have hle := addFunc_le e2
            have := hle.1.next
            obtain ⟨b3, g3, _⟩ := g2.addDiffer (x := gate) (y := gold) (by omega) hle.2.2 (by
              rw [ag gate lt1, hg1, hg2]
              exact hne leaves f hl hf)
            refine rootLoop_good hN hpi hv hR hw fuel _ g3 ?_ e
            intro k hk
            rcases List.mem_append.1 hk with hk | hk
            exacts [hq' k hk, (hq n (by simp)).step ⟨_, _, hg⟩ hl hk]
      · cases e

/-! ### the checks end -/

theorem chain_length {C : Choice} : ∀ (f : Nat) (e : Option Nat) (l : List Nat), C.chain f e = some l → l.length ≤ f
  | _, none, l, h => by simp only [Choice.chain, Option.some.injEq] at h; subst h; exact Nat.zero_le _
  | 0, some _, _, h => by simp [Choice.chain] at h
  | f + 1, some n, l, h => by
    rw [Choice.chain] at h
    split at h
    · cases h
    · obtain ⟨l', h', rfl⟩ := Option.map_eq_some_iff.1 h
      exact Nat.succ_le_succ (chain_length f _ l' h')

theorem members_defined {C : Choice} (hO : C.Ordered) {n : Nat} (hn : n < C.equivs.length) :
    ∃ ms, members C n = some ms ∧ ms.length ≤ C.equivs.length + 1 ∧ ∀ m ∈ ms, m < n := by
  obtain ⟨q, hq⟩ : ∃ q, C.equivs[n]? = some q := ⟨_, List.getElem?_eq_getElem hn⟩
  suffices H : ∃ ms, members C n = some ms ∧ ms.length ≤ C.equivs.length + 1 by
    obtain ⟨ms, h1, h2⟩ := H
    exact ⟨ms, h1, h2, fun m hm => ((mem_members h1 m).1 hm).2.lt hO⟩
  rw [members, hq]
  dsimp only
  split
  · exact ⟨[], rfl, Nat.zero_le _⟩
  · obtain ⟨l, hl⟩ := Mapper.chain_defined hO (C.equivs.length + 1) q (by
      rintro m rfl
      have := (hO.lt n m hq).2
      omega)
    exact ⟨l, hl, chain_length _ _ _ hl⟩

theorem collectChoices_defined {C : Choice} (hO : C.Ordered) : ∀ (l : List Nat) (m : Nat → Option Nat), (∀ n ∈ l, n < C.equivs.length) →
    ∃ R, collectChoices C l m = some R
  | [], m, _ => ⟨m, rfl⟩
  | n :: l, m, h => by
    obtain ⟨ms, e, _⟩ := members_defined hO (h n (by simp))
    rw [collectChoices, e]
    exact collectChoices_defined hO l _ fun n hn => h n (List.mem_cons_of_mem _ hn)

theorem reprMap_defined {C : Choice} (hO : C.Ordered) : ∃ R, reprMap C = some R := by
  refine collectChoices_defined hO _ _ fun n hn => ?_
  rw [Aig.gates, List.mem_filter, List.mem_range] at hn
  have := hO.len
  omega

theorem kids_lt {N : Aig} (hN : N.Built) {n k : Nat} (h : k ∈ RefDeref.aigKids N n) : k < n :=
  (Topo.C15_built N hN).ranked n k h

theorem coneLoop_defined {C : Choice} (hN : C.net.Built) (hO : C.Ordered) (lim : Nat) : ∀ (fuel : Nat) (q V : List Nat), V.Nodup →
    (∀ n ∈ V, n < C.net.nodes.length) → (∀ n ∈ q, n < C.net.nodes.length) →
    (C.net.nodes.length - V.length) * (C.equivs.length + 4) + q.length ≤ fuel → ∃ W, coneLoop C lim fuel q V = some W
  | fuel, [], V, _, _, _, _ => ⟨V, by cases fuel <;> rfl⟩
  | 0, _ :: _, _, _, _, _, h => by simp at h
  | fuel + 1, n :: q, V, hd, hV, hq, h => by
    have hq' : ∀ k ∈ q, k < C.net.nodes.length := fun k hk => hq k (List.mem_cons_of_mem _ hk)
    rw [List.length_cons] at h
    rw [coneLoop]
    by_cases hv : n ∈ V
    · rw [if_pos hv]
      exact coneLoop_defined hN hO lim fuel q V hd hV hq' (by omega)
    · have hn := hq n (by simp)
      have hlen := hO.len
      obtain ⟨ms, e, hl, hm⟩ := members_defined hO (Nat.lt_of_lt_of_le hn hlen)
      rw [if_neg hv, if_pos hn, e]
      dsimp only
      have hd' : (n :: V).Nodup := List.nodup_cons.2 ⟨hv, hd⟩
      have hV' : ∀ k ∈ n :: V, k < C.net.nodes.length := by
        intro k hk
        rcases List.mem_cons.1 hk with rfl | hk
        exacts [hn, hV k hk]
      have hc : (n :: V).length ≤ C.net.nodes.length := by
        have hsub : (n :: V) ⊆ List.range C.net.nodes.length := fun k hk => List.mem_range.2 (hV' k hk)
        have := (List.subperm_of_subset hd' hsub).length_le
        rwa [List.length_range] at this
      have hk2 : (RefDeref.aigKids C.net n).length ≤ 2 := by
        rw [RefDeref.aigKids]
        split
        · simp
        · split <;> simp
      refine coneLoop_defined hN hO lim fuel _ _ hd' hV' ?_ ?_
      · intro k hk
        rcases List.mem_append.1 hk with hk | hk
        · rcases List.mem_append.1 hk with hk | hk
          · exact hq' k hk
          · have := hm k hk; omega
        · split at hk
          · cases hk
          · exact Nat.lt_trans (kids_lt hN hk) hn
      · have hlen2 : (q ++ ms ++ if (RefDeref.aigKids C.net n).any (decide <| · < lim) then [] else RefDeref.aigKids C.net n).length ≤
            q.length + (C.equivs.length + 1) + 2 := by
          rw [List.length_append, List.length_append]
          split
          · simp only [List.length_nil]; omega
          · omega
        rw [List.length_cons] at hc ⊢
        have : (C.net.nodes.length - V.length) * (C.equivs.length + 4) =
            (C.net.nodes.length - (V.length + 1)) * (C.equivs.length + 4) + (C.equivs.length + 4) := by
          rw [← Nat.succ_mul]
          congr 1
          omega
        omega

/-- enough rounds for every cone -/
def coneFuel (C : Choice) : Nat := C.net.nodes.length * (C.equivs.length + 4) + 1

theorem addNodes_defined {C : Choice} {R : Nat → Option Nat} : ∀ (l : List Nat) (S : State), (∀ n ∈ l, n < C.net.nodes.length) →
    ∃ T, addNodes C R l S = some T
  | [], S, _ => ⟨S, rfl⟩
  | n :: l, S, h => by
    have h' : ∀ k ∈ l, k < C.net.nodes.length := fun k hk => h k (List.mem_cons_of_mem _ hk)
    obtain ⟨nd, hnd⟩ : ∃ nd, C.net.nodes[n]? = some nd := ⟨_, List.getElem?_eq_getElem (h n (by simp))⟩
    obtain ⟨x, y, e⟩ : ∃ x y, children C.net n = some (x, y) := by
      rw [children, hnd]
      dsimp only
      split <;> exact ⟨_, _, rfl⟩
    rw [addNodes]
    split
    · exact addNodes_defined l S h'
    · rw [e]
      dsimp only
      split
      · exact addNodes_defined l _ h'
      · exact addNodes_defined l _ h'

theorem addCone_defined {C : Choice} (hN : C.net.Built) (hO : C.Ordered) {R : Nat → Option Nat} {fuel root : Nat} (S : State)
    {leaves : List Nat} (hr : root < C.net.nodes.length) (hl : leaves ≠ []) (hf : coneFuel C ≤ fuel) :
    ∃ T g, addCone C R fuel S root leaves = some (T, g) := by
  obtain ⟨lim, e⟩ : ∃ lim, leaves.min? = some lim := by
    cases h : leaves.min? with
    | none => exact absurd (List.min?_eq_none_iff.1 h) hl
    | some lim => exact ⟨lim, rfl⟩
  obtain ⟨W, eW⟩ := coneLoop_defined hN hO lim fuel [root] [] List.nodup_nil (by simp) (by simpa using hr) (by
    simp only [coneFuel] at hf
    simpa using hf)
  rw [addCone, e]
  dsimp only
  rw [cone, eW]
  dsimp only [Option.map_some]
  obtain ⟨T, eT⟩ := addNodes_defined (R := R) ((List.range C.net.nodes.length).filter (decide <| · ∈ W)) (prepares (prepare S root) leaves) (by
    intro n hn
    exact List.mem_range.1 (List.mem_filter.1 hn).1)
  rw [eT]
  exact ⟨_, _, rfl⟩

theorem addFunc_defined {f : TT} (hf : f.WF) (hn : f.n < 32) {leaves : List Nat} (hl : leaves.length = f.n) (S : State) :
    ∃ T g, addFunc S f leaves = some (T, g) := by
  obtain ⟨_, _, _, e, _⟩ := addFunc_spec (S := S) hf hn hl
  exact ⟨_, _, e⟩

theorem cellClauses_defined {C : Choice} (hN : C.net.Built) (hO : C.Ordered) {M : Mapping} {R : Nat → Option Nat} {fuel root : Nat}
    (hf : coneFuel C ≤ fuel) (hr : root < C.net.nodes.length) (hc : Cell M root) : ∃ cs, cellClauses C M R fuel root = some cs := by
  obtain ⟨cs, f, h1, h2, h3, h4, h5, h6⟩ := hc
  obtain ⟨S1, g, e1⟩ := addFunc_defined h3 h5 h4.symm (prepares recycle cs)
  obtain ⟨S2, g', e2⟩ := addCone_defined hN hO (R := R) S1 hr h6 hf
  rw [cellClauses, h1, h2]
  dsimp only
  rw [e1]
  dsimp only
  rw [e2]
  exact ⟨_, rfl⟩

theorem sum_pow_lt {n : Nat} : ∀ (l : List Nat), l.length < 32 → (∀ k ∈ l, k < n) → (l.map (32 ^ ·)).sum < 32 ^ n := by
  intro l hl h
  cases n with
  | zero =>
    cases l with
    | nil => simp
    | cons k l => exact absurd (h k (by simp)) (by omega)
  | succ n =>
    have : (l.map (32 ^ ·)).sum ≤ l.length * 32 ^ n := by
      clear hl
      induction l with
      | nil => simp
      | cons k l ih =>
        have h1 := ih fun j hj => h j (List.mem_cons_of_mem _ hj)
        have h2 : 32 ^ k ≤ 32 ^ n := Nat.pow_le_pow_right (by omega) (by have := h k (by simp); omega)
        rw [List.map_cons, List.sum_cons, List.length_cons, Nat.succ_mul]
        omega
    have h3 : l.length * 32 ^ n < 32 * 32 ^ n := Nat.mul_lt_mul_of_pos_right hl (Nat.pow_pos (by omega))
    rw [Nat.pow_succ]
    omega

theorem rootLoop_defined {C : Choice} (hN : C.net.Built) (hO : C.Ordered) {M : Mapping} {R : Nat → Option Nat} {cf : Nat}
    (hcf : coneFuel C ≤ cf) (hpi : C.net.inputs.length = C.net.numPis)
    (hc : ∀ n, Cover.Root C.net M n → Cell M n ∧ ∀ cs, M.cellFanins n = some cs → ∀ l ∈ cs, Cover.Avail C.net M l ∧ l < n) :
    ∀ (fuel : Nat) (q : List Nat) (S : State), (∀ n ∈ q, Cover.Avail C.net M n) → (q.map (32 ^ ·)).sum ≤ fuel →
      ∃ T, rootLoop C M R cf fuel q S = some T
  | fuel, [], S, _, _ => ⟨S, by cases fuel <;> rfl⟩
  | 0, n :: q, _, _, h => by
    have : 0 < 32 ^ n := Nat.pow_pos (by omega)
    rw [List.map_cons, List.sum_cons] at h
    omega
  | fuel + 1, n :: q, S, hq, h => by
    have hp : 0 < 32 ^ n := Nat.pow_pos (by omega)
    rw [List.map_cons, List.sum_cons] at h
    have hq' : ∀ k ∈ q, Cover.Avail C.net M k := fun k hk => hq k (List.mem_cons_of_mem _ hk)
    rw [rootLoop]
    split
    · exact rootLoop_defined hN hO hcf hpi hc fuel q S hq' (by omega)
    · rename_i hs
      have hr : Cover.Root C.net M n := by
        rcases hq n (by simp) with rfl | hi | hr
        · simp at hs
        · exfalso
          have h0 : n ≠ 0 := by rintro rfl; simp at hs
          obtain ⟨k, hk⟩ := List.getElem?_of_mem hi
          have hlt := (List.getElem?_eq_some_iff.1 hk).1
          have := (Validator.isPi_iff hN.wf h0).2 ⟨k, by omega, hk⟩
          rw [this] at hs
          simp at hs
        · exact hr
      obtain ⟨⟨cs, f, h1, h2, h3, h4, h5, h6⟩, hlv⟩ := hc n hr
      obtain ⟨⟨a, b, hg⟩, _⟩ := hr
      rw [h1, h2]
      dsimp only
      obtain ⟨S1, g, e1⟩ := addCone_defined hN hO (R := R) (prepares S cs) (hN.wf.isGate_lt hg).2.2.2 h6 hcf
      obtain ⟨S2, g', e2⟩ := addFunc_defined h3 h5 h4.symm S1
      rw [e1]
      dsimp only
      rw [e2]
      dsimp only
      refine rootLoop_defined hN hO hcf hpi hc fuel _ _ ?_ ?_
      · intro k hk
        rcases List.mem_append.1 hk with hk | hk
        exacts [hq' k hk, (hlv cs h1 k hk).1]
      · have := sum_pow_lt (n := n) cs (by omega) fun k hk => (hlv cs h1 k hk).2
        rw [List.map_append, List.sum_append]
        omega

end Verif.Checker
