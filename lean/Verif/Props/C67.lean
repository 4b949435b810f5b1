import Verif.Validator.Proof
import Verif.Choice.Dpll

set_option autoImplicit false

/-!
# C67: the circuit validator gives right verdicts

Full statement: after any sequence of calls and while the network grows, `validate` says "equivalent" only for functions that are equal and
"not equivalent" only for functions that differ, and then `cex` holds values of the primary inputs for which they differ.

`C67_signals`, `C67_node`, `C67_const` and `C67_circuit` prove this for networks that grow by gates and outputs, including register outputs
and restarts of the solver. It fails for inputs created after the validator (`C67_violated_input`, `C67_undefined_input`).
-/

namespace Verif.Validator
open Cnf (litNot litNotCond onAnd onXor onMaj onXor3 Answer LitTrue Satisfies litTrue_not litTrue_cond satisfies_append satisfies_cons)
open Aig (WF Models IsGate Built)

/-! ### specification -/

/-- the type and the number of fanins belong together, and the fanins exist -/
def CGate.Legal (k : Nat) (g : CGate) : Prop :=
  (∀ f ∈ g.fanins, f.1 < k) ∧ (g.type, g.fanins.length) ∈ [(GateType.and, 2), (GateType.xor, 2), (GateType.xor, 3), (GateType.maj, 3)]

instance (k : Nat) (g : CGate) : Decidable (g.Legal k) := inferInstanceAs (Decidable (_ ∧ _))

/-- a circuit over `k` values -/
def Legal : Nat → List CGate → Prop
  | _, [] => True
  | k, g :: l => g.Legal k ∧ Legal (k + 1) l

instance decLegal : ∀ (k : Nat) (l : List CGate), Decidable (Legal k l)
  | _, [] => inferInstanceAs (Decidable True)
  | k, _ :: l => @instDecidableAnd _ _ _ (decLegal (k + 1) l)

/-- the value of a gate: AND is 1 if all fanins are, XOR if their number is odd, MAJ if at least two are -/
def CGate.value (g : CGate) (x : List Bool) : Option Bool :=
  (g.fanins.mapM fun f => (x[f.1]?).map (Bool.xor f.2)).map fun ys =>
    match g.type with
    | .and => ys.count true == ys.length
    | .xor => ys.count true % 2 == 1
    | .maj => decide (2 ≤ ys.count true)

/-- the output of a circuit: the last value -/
def output : List CGate → List Bool → Option Bool
  | [], x => x.getLast?
  | g :: l, x => (g.value x).bind fun y => output l (x ++ [y])

/-- All sessions: a validator is created for a constructed network, `validate` and `update` are called in any order and with any answers of the
solver, and gates, outputs and register inputs are added in between. -/
inductive Reach (E : Env) : Aig → State → Prop
  | init {N S} : Built N → init N = some S → Reach E N S
  | signals {N S S' r} (f d : Sig) : Reach E N S → N.Valid f → N.Valid d → validateSig E N f d S = some (S', r) → Reach E N S'
  | node {N S S' r} (root : Nat) (d : Sig) : Reach E N S → root < N.nodes.length → N.Valid d → validateNode E N root d S = some (S', r) → Reach E N S'
  | const {N S S' r} (root : Nat) (b : Bool) : Reach E N S → root < N.nodes.length → validateConst E N root b S = some (S', r) → Reach E N S'
  | circuit {N S S' r} (root : Nat) (divs : List Nat) (c : List CGate) (neg : Bool) : Reach E N S → root < N.nodes.length →
      (∀ n ∈ divs, n < N.nodes.length) → divs ≠ [] → Legal divs.length c → validateCircuit E N root divs c neg S = some (S', r) → Reach E N S'
  | generate {N S S' r} (root : Nat) (b : Bool) (blocked : List (List Bool)) (num : Nat) : Reach E N S → root < N.nodes.length →
      (∀ p ∈ blocked, p.length = N.numPis) → generatePattern E N root b blocked num S = some (S', r) → Reach E N S'
  | update {N S S'} : Reach E N S → restart N S = some S' → Reach E N S'
  | and {N S} (a b : Sig) : Reach E N S → N.Valid a → N.Valid b → Reach E (N.createAnd a b).1 (onAdd (N.createAnd a b).1 S)
  | po {N S} (f : Sig) : Reach E N S → N.Valid f → Reach E (N.createPo f) S
  | ri {N S} (f : Sig) (r : Int) : Reach E N S → N.Valid f → Reach E (N.createRi f r) S

/-! ### the calls keep the invariant -/

/-- the literals `ls` stand for the functions `fs` -/
def Stand (T : List Tmp) (ls : List Nat) (fs : List ((Nat → Bool) → Bool)) : Prop :=
  ls.length = fs.length ∧ ∀ (j l : Nat) f, ls[j]? = some l → fs[j]? = some f → (l, f) ∈ T

theorem Stand.get {T : List Tmp} {ls : List Nat} {fs : List ((Nat → Bool) → Bool)} (h : Stand T ls fs) {j : Nat} (hj : j < ls.length) :
    ∃ l f, ls[j]? = some l ∧ fs[j]? = some f ∧ (l, f) ∈ T := by
  obtain ⟨l, hl⟩ : ∃ l, ls[j]? = some l := ⟨_, List.getElem?_eq_getElem hj⟩
  obtain ⟨f, hf⟩ : ∃ f, fs[j]? = some f := ⟨_, List.getElem?_eq_getElem (by rw [← h.1]; exact hj)⟩
  exact ⟨l, f, hl, hf, h.2 j l f hl hf⟩

theorem Stand.mono {T T' : List Tmp} {ls : List Nat} {fs : List ((Nat → Bool) → Bool)} (h : Stand T ls fs) (hT : ∀ t ∈ T, t ∈ T') : Stand T' ls fs :=
  ⟨h.1, fun j l f hl hf => hT _ (h.2 j l f hl hf)⟩

theorem Stand.snoc {T : List Tmp} {ls : List Nat} {fs : List ((Nat → Bool) → Bool)} (h : Stand T ls fs) {l : Nat} {f : (Nat → Bool) → Bool}
    (ht : (l, f) ∈ T) : Stand T (ls ++ [l]) (fs ++ [f]) := by
  refine ⟨by simp [h.1], fun j l' f' hl hf => ?_⟩
  by_cases hj : j < ls.length
  · rw [List.getElem?_append_left hj] at hl
    rw [List.getElem?_append_left (by rw [← h.1]; exact hj)] at hf
    exact h.2 j l' f' hl hf
  · have hj' : j = ls.length := by
      have := Aig.lt_of_getElem? hl
      simp at this; omega
    subst hj'
    rw [List.getElem?_concat_length] at hl
    rw [h.1, List.getElem?_concat_length] at hf
    obtain rfl := Option.some.inj hl
    obtain rfl := Option.some.inj hf
    exact ht

/-- the clauses of a temporary gate define a function of the temporaries -/
theorem tmp_fresh {N : Aig} {S : State} {T : List Tmp} (h : Inv N S T) (cs : List (List Nat)) (g : (Nat → Bool) → Bool)
    (hb : ∀ c ∈ cs, ∀ l ∈ c, l / 2 ≤ S.nvars)
    (hc : ∀ s v, AgreeAll N S T s v → (Satisfies s cs ↔ (LitTrue s (2 * S.nvars) ↔ g v = true))) :
    Inv N { S with nvars := S.nvars + 1, clauses := S.clauses ++ cs } ((2 * S.nvars, g) :: T) := by
  refine h.fresh cs g hb ?_ ?_
  · intro s v _ ha hs
    rw [hc s v ha, litTrue_two, hs]
  · intro t ht
    rcases List.mem_cons.1 ht with rfl | ht
    · refine Or.inr ⟨rfl, fun s v _ ha hs => ?_⟩
      rw [hc s v ha, litTrue_two] at hs
      exact hs
    · exact Or.inl ht

theorem agree_cond {N : Aig} {S : State} {T : List Tmp} {s v : Nat → Bool} (ha : AgreeAll N S T s v) {l : Nat} {f : (Nat → Bool) → Bool}
    (ht : (l, f) ∈ T) (c : Bool) : LitTrue s (litNotCond l c) ↔ Bool.xor c (f v) = true := by
  rw [litTrue_cond, ha.2 _ ht]
  cases c <;> cases hf : f v <;> simp [hf]

theorem addTmpGate_spec {N : Aig} {S : State} {T : List Tmp} (h : Inv N S T) {ls : List Nat} {fs : List ((Nat → Bool) → Bool)} (hst : Stand T ls fs)
    (g : CGate) (hg : g.Legal ls.length) : ∃ S' n f, addTmpGate ls g S = some (S', n) ∧ S'.lits = S.lits ∧ S'.built = S.built ∧
      Inv N S' ((n, f) :: T) ∧ ∀ v, g.value (fs.map fun f => f v) = some (f v) := by
  obtain ⟨fi, ty⟩ := g
  obtain ⟨h1, h2⟩ := hg
  dsimp only at h1 h2
  have hlen : fi.length = 2 ∨ fi.length = 3 := by
    simp only [List.mem_cons, Prod.mk.injEq, List.not_mem_nil, or_false] at h2
    omega
  have hbnd : ∀ {l : Nat} {f : (Nat → Bool) → Bool}, (l, f) ∈ T → ∀ c, litNotCond l c / 2 ≤ S.nvars := fun ht c => by
    rw [litNotCond_div]; exact (h.tmp _ ht).le
  rcases hlen with hlen | hlen
  · obtain ⟨⟨i, a⟩, ⟨j, b⟩, rfl⟩ := List.length_eq_two.1 hlen
    obtain ⟨la, fa, ea, ea', ta⟩ := hst.get (h1 (i, a) (by simp))
    obtain ⟨lb, fb, eb, eb', tb⟩ := hst.get (h1 (j, b) (by simp))
    dsimp only at ea ea' eb eb'
    unfold addTmpGate
    simp only [ea, eb]
    have ba := hbnd ta a
    have bb := hbnd tb b
    have vals : ∀ v, ((fs.map fun f => f v)[i]? = some (fa v)) ∧ ((fs.map fun f => f v)[j]? = some (fb v)) := fun v => by
      rw [List.getElem?_map, List.getElem?_map, ea', eb']; exact ⟨rfl, rfl⟩
    cases ty with
    | maj => simp at h2
    | and =>
      refine ⟨_, _, fun v => Bool.xor a (fa v) && Bool.xor b (fb v), rfl, rfl, rfl, tmp_fresh h _ _ ?_ ?_, fun v => ?_⟩
      · intro c hc l hl
        simp only [clauses2, onAnd, List.mem_cons, List.not_mem_nil, or_false] at hc
        rcases hc with rfl | rfl | rfl <;> simp only [List.mem_cons, List.not_mem_nil, or_false] at hl <;>
          rcases hl with rfl | rfl | hl <;> (try subst hl) <;> (try simp only [litNot_div]) <;> omega
      · intro s v ha
        rw [clauses2, (Cnf.C43_gates s _ _ 0 _).1, agree_cond ha ta, agree_cond ha tb, Bool.and_eq_true]
      · unfold CGate.value
        simp only [List.mapM_cons, List.mapM_nil, (vals v).1, (vals v).2, Option.map_some, Option.bind_eq_bind, Option.bind_some, Option.pure_def]
        cases Bool.xor a (fa v) <;> cases Bool.xor b (fb v) <;> rfl
    | xor =>
      refine ⟨_, _, fun v => Bool.xor (Bool.xor a (fa v)) (Bool.xor b (fb v)), rfl, rfl, rfl, tmp_fresh h _ _ ?_ ?_, fun v => ?_⟩
      · intro c hc l hl
        simp only [clauses2, onXor, List.mem_cons, List.not_mem_nil, or_false] at hc
        rcases hc with rfl | rfl | rfl | rfl <;> simp only [List.mem_cons, List.not_mem_nil, or_false] at hl <;>
          rcases hl with rfl | rfl | hl <;> (try subst hl) <;> (try simp only [litNot_div]) <;> omega
      · intro s v ha
        rw [clauses2, (Cnf.C43_gates s _ _ 0 _).2.2.1, agree_cond ha ta, agree_cond ha tb]
        cases Bool.xor a (fa v) <;> cases Bool.xor b (fb v) <;> simp [Xor]
      · unfold CGate.value
        simp only [List.mapM_cons, List.mapM_nil, (vals v).1, (vals v).2, Option.map_some, Option.bind_eq_bind, Option.bind_some, Option.pure_def]
        cases Bool.xor a (fa v) <;> cases Bool.xor b (fb v) <;> rfl
  · obtain ⟨⟨i, a⟩, ⟨j, b⟩, ⟨k, d⟩, rfl⟩ := List.length_eq_three.1 hlen
    obtain ⟨la, fa, ea, ea', ta⟩ := hst.get (h1 (i, a) (by simp))
    obtain ⟨lb, fb, eb, eb', tb⟩ := hst.get (h1 (j, b) (by simp))
    obtain ⟨ld, fd, ed, ed', td⟩ := hst.get (h1 (k, d) (by simp))
    dsimp only at ea ea' eb eb' ed ed'
    unfold addTmpGate
    simp only [ea, eb, ed]
    have ba := hbnd ta a
    have bb := hbnd tb b
    have bd := hbnd td d
    have vals : ∀ v, ((fs.map fun f => f v)[i]? = some (fa v)) ∧ ((fs.map fun f => f v)[j]? = some (fb v)) ∧
        ((fs.map fun f => f v)[k]? = some (fd v)) := fun v => by
      rw [List.getElem?_map, List.getElem?_map, List.getElem?_map, ea', eb', ed']; exact ⟨rfl, rfl, rfl⟩
    cases ty with
    | and => simp at h2
    | maj =>
      refine ⟨_, _, fun v => (Bool.xor a (fa v) && Bool.xor b (fb v)) || (Bool.xor a (fa v) && Bool.xor d (fd v)) ||
        (Bool.xor b (fb v) && Bool.xor d (fd v)), rfl, rfl, rfl, tmp_fresh h _ _ ?_ ?_, fun v => ?_⟩
      · intro c hc l hl
        simp only [clauses3, onMaj, List.mem_cons, List.not_mem_nil, or_false] at hc
        rcases hc with rfl | rfl | rfl | rfl | rfl | rfl <;> simp only [List.mem_cons, List.not_mem_nil, or_false] at hl <;>
          rcases hl with rfl | rfl | hl <;> (try subst hl) <;> (try simp only [litNot_div]) <;> omega
      · intro s v ha
        rw [clauses3, (Cnf.C43_gates s _ _ _ _).2.2.2.1, agree_cond ha ta, agree_cond ha tb, agree_cond ha td]
        cases Bool.xor a (fa v) <;> cases Bool.xor b (fb v) <;> cases Bool.xor d (fd v) <;> simp
      · unfold CGate.value
        simp only [List.mapM_cons, List.mapM_nil, (vals v).1, (vals v).2.1, (vals v).2.2, Option.map_some, Option.bind_eq_bind, Option.bind_some,
          Option.pure_def]
        cases Bool.xor a (fa v) <;> cases Bool.xor b (fb v) <;> cases Bool.xor d (fd v) <;> rfl
    | xor =>
      refine ⟨_, _, fun v => Bool.xor (Bool.xor (Bool.xor a (fa v)) (Bool.xor b (fb v))) (Bool.xor d (fd v)), rfl, rfl, rfl,
        tmp_fresh h _ _ ?_ ?_, fun v => ?_⟩
      · intro c hc l hl
        simp only [clauses3, onXor3, List.mem_cons, List.not_mem_nil, or_false] at hc
        rcases hc with rfl | rfl | rfl | rfl | rfl | rfl | rfl | rfl <;> simp only [List.mem_cons, List.not_mem_nil, or_false] at hl <;>
          rcases hl with rfl | rfl | rfl | rfl <;> (try simp only [litNot_div]) <;> omega
      · intro s v ha
        rw [clauses3, (Cnf.C43_gates s _ _ _ _).2.2.2.2.1, agree_cond ha ta, agree_cond ha tb, agree_cond ha td]
        cases Bool.xor a (fa v) <;> cases Bool.xor b (fb v) <;> cases Bool.xor d (fd v) <;> simp [Xor]
      · unfold CGate.value
        simp only [List.mapM_cons, List.mapM_nil, (vals v).1, (vals v).2.1, (vals v).2.2, Option.map_some, Option.bind_eq_bind, Option.bind_some,
          Option.pure_def]
        cases Bool.xor a (fa v) <;> cases Bool.xor b (fb v) <;> cases Bool.xor d (fd v) <;> rfl

theorem addCircuit_spec {N : Aig} : ∀ (c : List CGate) (S : State) (T : List Tmp) (ls : List Nat) (fs : List ((Nat → Bool) → Bool)), Inv N S T →
    Stand T ls fs → ls ≠ [] → Legal ls.length c → ∃ S' T' ls' l f, addCircuit c ls S = some (S', ls') ∧ S'.lits = S.lits ∧ S'.built = S.built ∧
      Inv N S' T' ∧ ls'.getLast? = some l ∧ (l, f) ∈ T' ∧ ∀ v, output c (fs.map fun f => f v) = some (f v) := by
  intro c
  induction c with
  | nil =>
    intro S T ls fs h hst hne _
    have hpos : ls.length - 1 < ls.length := by
      have := List.length_pos_iff.2 hne; omega
    obtain ⟨l, f, hl, hf, ht⟩ := hst.get hpos
    refine ⟨S, T, ls, l, f, rfl, rfl, rfl, h, by rw [List.getLast?_eq_getElem?, hl], ht, fun v => ?_⟩
    rw [output, List.getLast?_eq_getElem?, List.length_map, ← hst.1, List.getElem?_map, hf]
    rfl
  | cons g c ih =>
    intro S T ls fs h hst hne hleg
    obtain ⟨S1, n, f, e1, a1, a2, a3, a4⟩ := addTmpGate_spec h hst g hleg.1
    obtain ⟨S2, T2, ls2, l, f2, e2, b1, b2, b3, b4, b5, b6⟩ := ih S1 ((n, f) :: T) (ls ++ [n]) (fs ++ [f]) a3
      ((hst.mono fun t ht => List.mem_cons_of_mem _ ht).snoc List.mem_cons_self) (by simp) (by rw [List.length_append]; exact hleg.2)
    refine ⟨S2, T2, ls2, l, f2, by rw [addCircuit, e1]; exact e2, b1.trans a1, b2.trans a2, b3, b4, b5, fun v => ?_⟩
    rw [output, a4 v, Option.bind_some, ← b6 v, List.map_append]
    rfl

theorem Inv.divLits {N : Aig} : ∀ (divs : List Nat) (S : State) (T : List Tmp) (ls : List Nat) (fs : List ((Nat → Bool) → Bool)), Inv N S T →
    Stand T ls fs → (∀ n ∈ divs, n < N.nodes.length) → ∃ S' T' ls', divLits N divs ls S = some (S', ls') ∧ Inv N S' T' ∧ Grow N S S' ∧
      Stand T' ls' (fs ++ divs.map fun n v => v n) ∧ ls'.length = ls.length + divs.length := by
  intro divs
  induction divs with
  | nil => intro S T ls fs h hst _; exact ⟨S, T, ls, rfl, h, Grow.refl N S, by simpa using hst, by simp⟩
  | cons n divs ih =>
    intro S T ls fs h hst hlt
    obtain ⟨S1, l, e1, i1, g1, k1, hl⟩ := need_spec h (hlt n List.mem_cons_self)
    have i2 := i1.withNode k1 hl false
    have hf : (fun v : Nat → Bool => Bool.xor false (v n)) = fun v => v n := by funext v; simp
    rw [hf] at i2
    obtain ⟨S2, T2, ls2, e2, i3, g2, st, len⟩ := ih S1 _ (ls ++ [l]) (fs ++ [fun v => v n]) i2
      ((hst.mono fun t ht => List.mem_cons_of_mem _ ht).snoc List.mem_cons_self) fun m hm => hlt m (List.mem_cons_of_mem _ hm)
    refine ⟨S2, T2, ls2, ?_, i3, g1.trans g2, ?_, ?_⟩
    · rw [Validator.divLits, e1]
      dsimp only
      rw [hl]
      exact e2
    · simpa using st
    · rw [len]; simp; omega

/-- Verdict about a node and the output of a circuit -/
def CircuitVerdict (N : Aig) (root : Nat) (divs : List Nat) (c : List CGate) (neg : Bool) (cex : List Bool) (r : Option Bool) : Prop :=
  (r = some true → ∀ v, N.Models v → (output c (divs.map v)).map (Bool.xor neg) = some (v root)) ∧
  (r = some false → ∃ v, N.Models v ∧ pattern N v = cex ∧ (output c (divs.map v)).map (Bool.xor neg) = some (!v root))

theorem tmp_cond {N : Aig} {S : State} {T : List Tmp} (h : Inv N S T) {l : Nat} {f : (Nat → Bool) → Bool} (ht : (l, f) ∈ T) (c : Bool) :
    Inv N S ((litNotCond l c, fun v => Bool.xor c (f v)) :: T) := by
  refine ⟨h.wf, h.piLen, h.len, h.zero, h.pis, h.nodes, h.lit, h.nvars, h.bound, ?_, ?_, ?_, h.cex⟩
  · intro t ht'
    rcases List.mem_cons.1 ht' with rfl | ht'
    · dsimp only; rw [litNotCond_div]; exact h.tmp _ ht
    · exact h.tmp t ht'
  · intro s v hs hv hi
    have := h.sound s v hs hv hi
    refine ⟨this.1, fun t ht' => ?_⟩
    rcases List.mem_cons.1 ht' with rfl | ht'
    · exact agree_cond this ht c
    · exact this.2 t ht'
  · intro v hv
    obtain ⟨s, hs, ha⟩ := h.complete v hv
    refine ⟨s, hs, ha.1, fun t ht' => ?_⟩
    rcases List.mem_cons.1 ht' with rfl | ht'
    · exact agree_cond ha ht c
    · exact ha.2 t ht'

theorem circuit_inv {E : Env} (hE : Right E) {N : Aig} {S : State} (h : Inv N S []) {root : Nat} (hr : root < N.nodes.length) {divs : List Nat}
    (hd : ∀ n ∈ divs, n < N.nodes.length) (hne : divs ≠ []) {c : List CGate} (hc : Legal divs.length c) (neg : Bool) :
    ∃ S' r, validateCircuit E N root divs c neg S = some (S', r) ∧ Inv N S' [] ∧ CircuitVerdict N root divs c neg S'.cex r := by
  obtain ⟨S1, _, e1, i1, g1, k1, _⟩ := need_spec h hr
  obtain ⟨S2, T2, ls2, e2, i2, g2, st2, len2⟩ := Inv.divLits divs S1 [] [] [] i1 ⟨rfl, fun j l f hl => by simp at hl⟩ hd
  rw [List.length_nil, Nat.zero_add] at len2
  obtain ⟨S3, T3, ls3, l, f, e3, a1, a2, i3, a3, a4, a5⟩ := addCircuit_spec c S2 T2 ls2 _ i2 st2
    (fun e => hne (by rw [e] at len2; exact List.length_eq_zero_iff.1 len2.symm)) (by rw [len2]; exact hc)
  have hk : Known N S3 root := by
    have := (g2.known root k1).1
    unfold Known at this ⊢
    rw [a2]; exact this
  obtain ⟨S4, r, e4, i4, vd, keep⟩ := validateLit_spec hE (tmp_cond i3 a4 neg) hr (t := (litNotCond l neg, fun v => Bool.xor neg (f v))) List.mem_cons_self
  have i5 : Inv N (if E.pushpop then pop S2 S4 else S4) [] := by
    split
    · refine i2.congr ?_ rfl rfl rfl i4.cex (fun t ht => by cases ht)
      exact (keep hk).1.trans a1
    · exact i4
  obtain ⟨S5, e5, i6, c6⟩ := finish_spec (E := E) i5 r
  refine ⟨S5, r, ?_, i6, ?_⟩
  · unfold validateCircuit
    rw [e1]
    dsimp only
    rw [e2]
    dsimp only
    rw [e3]
    dsimp only
    rw [a3]
    dsimp only
    rw [e4]
    exact e5
  · have hcex : S5.cex = S4.cex := by rw [c6]; split <;> rfl
    have ho : ∀ v : Nat → Bool, output c (divs.map v) = some (f v) := fun v => by
      rw [← a5 v]
      congr 1
      simp [List.map_map, Function.comp_def]
    refine ⟨fun hr v hv => ?_, fun hr => ?_⟩
    · have := vd.1 hr v hv
      dsimp only at this
      rw [ho, Option.map_some, ← this]
    · obtain ⟨v, hv, hp, hne⟩ := vd.2 hr
      refine ⟨v, hv, hp.trans hcex.symm, ?_⟩
      dsimp only at hne
      rw [ho, Option.map_some, Option.some.injEq]
      revert hne
      cases v root <;> cases Bool.xor neg (f v) <;> simp

theorem lit_inv {E : Env} (hE : Right E) {N : Aig} {S1 : State} {root n l : Nat} (hr : root < N.nodes.length) (c : Bool)
    (i1 : Inv N S1 []) (k1 : Known N S1 n) (hl : S1.lits[n]? = some l) :
    ∃ S' r, finish E N (validateLit E N root (litNotCond l c) S1) = some (S', r) ∧ Inv N S' [] ∧
      Verdict N (fun v => v root) (fun v => Bool.xor c (v n)) S'.cex r := by
  obtain ⟨S2, r, e2, i2, vd, _⟩ := validateLit_spec hE (i1.withNode k1 hl c) hr List.mem_cons_self
  obtain ⟨S3, e3, i3, c3⟩ := finish_spec (E := E) i2 r
  exact ⟨S3, r, by dsimp only at e2; rw [e2]; exact e3, i3, by rw [c3]; exact vd⟩

theorem signals_inv {E : Env} (hE : Right E) {N : Aig} {S : State} (h : Inv N S []) {f d : Sig} (hf : N.Valid f) (hd : N.Valid d) :
    ∃ S' r, validateSig E N f d S = some (S', r) ∧ Inv N S' [] ∧ Verdict N f.val d.val S'.cex r := by
  obtain ⟨S1, l, e1, i1, g1, k1, hl⟩ := need_spec h hd
  obtain ⟨S2, r, e2, i2, vd⟩ := lit_inv hE hf (Bool.xor f.compl d.compl) i1 k1 hl
  refine ⟨S2, r, by unfold validateSig; rw [e1]; dsimp only; rw [hl]; exact e2, i2, fun hr v hv => ?_, fun hr => ?_⟩
  · have := vd.1 hr v hv
    dsimp only at this
    unfold Sig.val
    dsimp only
    rw [this]
    cases f.compl <;> cases d.compl <;> cases v d.index <;> rfl
  · obtain ⟨v, hv, hp, hne⟩ := vd.2 hr
    refine ⟨v, hv, hp, ?_⟩
    dsimp only at hne
    unfold Sig.val
    dsimp only
    revert hne
    cases f.compl <;> cases d.compl <;> cases v d.index <;> cases v f.index <;> decide

theorem node_inv {E : Env} (hE : Right E) {N : Aig} {S : State} (h : Inv N S []) {root : Nat} {d : Sig} (hf : root < N.nodes.length) (hd : N.Valid d) :
    ∃ S' r, validateNode E N root d S = some (S', r) ∧ Inv N S' [] ∧ Verdict N (fun v => v root) d.val S'.cex r := by
  obtain ⟨S1, l, e1, i1, g1, k1, hl⟩ := need_spec h hd
  obtain ⟨S2, r, e2, i2, vd⟩ := lit_inv hE hf d.compl i1 k1 hl
  exact ⟨S2, r, by unfold validateNode; rw [e1]; dsimp only; rw [hl]; exact e2, i2, vd⟩

theorem const_inv {E : Env} (hE : Right E) {N : Aig} {S : State} (h : Inv N S []) {root : Nat} (hr : root < N.nodes.length) (b : Bool) :
    ∃ S' r, validateConst E N root b S = some (S', r) ∧ Inv N S' [] ∧ Verdict N (fun v => v root) (fun _ => b) S'.cex r := by
  obtain ⟨S1, l, e1, i1, g1, k1, hl⟩ := need_spec h hr
  obtain ⟨S2, r, e2, a1, a2, a3, a4, a5, a6, a7⟩ := solveWith_spec hE i1.cex i1.nvars [litNotCond l b]
  have i2 : Inv N S2 [] := i1.congr a1 a2 a3 a4 a5 fun t ht => ht
  obtain ⟨S3, e3, i3, c3⟩ := finish_spec (E := E) i2 r
  refine ⟨S3, r, by unfold validateConst; rw [e1]; dsimp only; rw [hl]; dsimp only; rw [e2]; exact e3, i3, fun hr v hv => ?_, fun hr => ?_⟩
  · obtain ⟨s, hs, ha⟩ := i1.complete v hv
    have := a6 hr s hs
    by_contra hne
    refine this fun m hm => ?_
    rw [List.mem_singleton.1 hm, litTrue_cond, ha.1 root k1 l hl]
    dsimp only at hne
    revert hne
    cases v root <;> cases b <;> simp
  · obtain ⟨a, h1, h2, h3⟩ := a7 hr
    obtain ⟨v, hv, ha⟩ := i1.model h1
    refine ⟨v, hv, by rw [c3, h3, ha.pattern i1], ?_⟩
    have := h2 _ List.mem_cons_self
    rw [litTrue_cond, ha.1 root k1 l hl] at this
    dsimp only
    revert this
    cases v root <;> cases b <;> simp

/-! ### patterns -/

/-- the values of the variables of the primary inputs -/
def bits (s : Nat → Bool) (i k : Nat) : List Bool := (List.range' i k).map fun j => s (j + 1)

theorem blockClause_spec (lits : List Nat) : ∀ (xs : List Nat) (i : Nat) (p : List Bool), p.length = xs.length →
    (∀ (j n : Nat), xs[j]? = some n → lits[n]? = some (2 * (i + j + 1))) →
    ∃ c, blockClause lits xs p = some c ∧ ∀ s, (∃ l ∈ c, LitTrue s l) ↔ bits s i xs.length ≠ p := by
  intro xs
  induction xs with
  | nil =>
    intro i p hp _
    obtain rfl := List.length_eq_zero_iff.1 hp
    exact ⟨[], rfl, fun s => by simp [bits]⟩
  | cons n xs ih =>
    intro i p hp hl
    cases p with
    | nil => simp at hp
    | cons b p =>
      obtain ⟨c, e, hc⟩ := ih (i + 1) p (by simpa using hp) fun j m hj => by
        rw [hl (j + 1) m (by simpa using hj)]; congr 2; omega
      have h0 := hl 0 n rfl
      rw [Nat.add_zero] at h0
      refine ⟨litNotCond (2 * (i + 1)) b :: c, by rw [blockClause, h0, e], fun s => ?_⟩
      have hbits : bits s i (n :: xs).length = s (i + 1) :: bits s (i + 1) xs.length := by
        simp [bits, List.range'_succ]
      rw [hbits]
      simp only [List.mem_cons, exists_eq_or_imp, hc s, litTrue_cond, litTrue_two, ne_eq, List.cons.injEq, not_and_or]
      apply or_congr_left
      cases b <;> cases s (i + 1) <;> simp

theorem bits_range (s : Nat → Bool) (k : Nat) : bits s 0 k = (List.range k).map fun j => s (j + 1) := by
  rw [bits, List.range_eq_range']

theorem Inv.blockPattern {N : Aig} {S S' : State} (h : Inv N S []) (hl : S'.lits = S.lits) {p : List Bool} (hp : p.length = N.numPis) :
    ∃ c, Validator.blockPattern N p S' = some { S' with clauses := S'.clauses ++ [c] } ∧
      ∀ s, (∃ l ∈ c, LitTrue s l) ↔ (List.range N.numPis).map (fun j => s (j + 1)) ≠ p := by
  have hlen : (N.inputs.take N.numPis).length = N.numPis := by simp [h.piLen]
  obtain ⟨c, e, hc⟩ := blockClause_spec S'.lits (N.inputs.take N.numPis) 0 p (by rw [hp, hlen]) fun j n hj => by
    have hj' : j < N.numPis := by rw [← hlen]; exact Aig.lt_of_getElem? hj
    rw [List.getElem?_take_of_lt hj'] at hj
    rw [hl, h.pis j n hj' hj]
    congr 2; omega
  refine ⟨c, by unfold Validator.blockPattern; rw [e], fun s => ?_⟩
  rw [hc s, hlen, bits_range]

/-- the state during `generate_pattern`: the state before, and clauses that exclude the patterns `B` -/
def Blocked (N : Aig) (S S' : State) (B : List (List Bool)) : Prop :=
  S'.lits = S.lits ∧ S'.built = S.built ∧ S'.nvars = S.nvars ∧ S'.cex.length = N.numPis ∧ ∃ cs, S'.clauses = S.clauses ++ cs ∧
    ∀ s, Satisfies s cs ↔ (List.range N.numPis).map (fun j => s (j + 1)) ∉ B

theorem Blocked.add {N : Aig} {S S' : State} {B : List (List Bool)} (hS : Inv N S []) (h : Blocked N S S' B) {p : List Bool} (hp : p.length = N.numPis) :
    ∃ S'', Validator.blockPattern N p S' = some S'' ∧ S''.cex = S'.cex ∧ Blocked N S S'' (B ++ [p]) := by
  obtain ⟨c, e, hc⟩ := hS.blockPattern h.1 hp
  obtain ⟨h1, h2, h3, h4, cs, h5, h6⟩ := h
  refine ⟨_, e, rfl, h1, h2, h3, h4, cs ++ [c], by dsimp only; rw [h5, List.append_assoc], fun s => ?_⟩
  rw [satisfies_append, h6 s, satisfies_cons, hc s]
  simp [Satisfies]

theorem blockAll_spec {N : Aig} {S : State} (hS : Inv N S []) : ∀ (l : List (List Bool)) (S' : State) (B : List (List Bool)), Blocked N S S' B →
    (∀ p ∈ l, p.length = N.numPis) → ∃ S'', blockAll N l S' = some S'' ∧ Blocked N S S'' (B ++ l) := by
  intro l
  induction l with
  | nil => intro S' B h _; exact ⟨S', rfl, by simpa using h⟩
  | cons p l ih =>
    intro S' B h hl
    obtain ⟨S1, e1, _, h1⟩ := h.add hS (hl p List.mem_cons_self)
    obtain ⟨S2, e2, h2⟩ := ih S1 _ h1 fun q hq => hl q (List.mem_cons_of_mem _ hq)
    exact ⟨S2, by rw [blockAll, e1]; exact e2, by simpa using h2⟩

/-- what the loop has found -/
structure Found (N : Aig) (root : Nat) (value : Bool) (B acc : List (List Bool)) : Prop where
  nodup : acc.Nodup
  fresh : ∀ p ∈ acc, p ∉ B
  hit : ∀ p ∈ acc, ∃ v, N.Models v ∧ pattern N v = p ∧ v root = value

theorem generateLoop_spec {E : Env} (hE : Right E) {N : Aig} {S : State} (hS : Inv N S []) {root l : Nat} (hk : Known N S root)
    (hl : S.lits[root]? = some l) (value : Bool) (B : List (List Bool)) : ∀ (k : Nat) (acc : List (List Bool)) (last : Option Bool) (S' : State),
    Blocked N S S' (B ++ acc) → Found N root value B acc → last ≠ some true →
    ∃ S'' ps r, generateLoop E N [litNotCond l !value] k acc last S' = some (S'', ps, r) ∧ Blocked N S S'' (B ++ ps) ∧ Found N root value B ps ∧
      ps.length ≤ acc.length + k ∧ (r = some false → last = some false → ps.length = acc.length + k) ∧
      (r = some true → ∀ v, N.Models v → v root = value → pattern N v ∈ B ++ ps) := by
  intro k
  induction k with
  | zero => intro acc last S' hb hf hlast; exact ⟨S', acc, last, rfl, hb, hf, le_rfl, fun _ _ => rfl, fun e => absurd e hlast⟩
  | succ k ih =>
    intro acc last S' hb hf hlast
    obtain ⟨h1, h2, h3, h4, cs, h5, h6⟩ := id hb
    obtain ⟨S1, r, e1, a1, a2, a3, a4, a5, a6, a7⟩ := solveWith_spec hE (N := N) (S := S') h4 (by rw [h3]; exact hS.nvars) [litNotCond l !value]
    have hb1 : Blocked N S S1 (B ++ acc) := ⟨a1.trans h1, a2.trans h2, a3.trans h3, a5, cs, a4.trans h5, h6⟩
    rw [generateLoop, e1]
    match r, a6, a7 with
    | some false, a6, a7 =>
      dsimp only
      obtain ⟨a, b1, b2, b3⟩ := a7 rfl
      rw [h5, satisfies_append] at b1
      obtain ⟨v, hv, ha⟩ := hS.model b1.1
      have hcex : S1.cex = pattern N v := by rw [b3, ha.pattern hS]
      have hnew : S1.cex ∉ B ++ acc := by rw [b3]; exact (h6 a).1 b1.2
      obtain ⟨S2, e2, _, hb2⟩ := hb1.add hS a5
      rw [e2]
      dsimp only
      rw [List.append_assoc] at hb2
      have hval : v root = value := by
        have := b2 _ List.mem_cons_self
        rw [litTrue_cond, ha.1 root hk l hl] at this
        revert this
        cases v root <;> cases value <;> simp
      have hF : Found N root value B (acc ++ [S1.cex]) := by
        refine ⟨?_, ?_, ?_⟩
        · rw [List.nodup_append]
          refine ⟨hf.nodup, List.nodup_singleton _, fun x hx y hy e => ?_⟩
          rw [List.mem_singleton.1 hy] at e
          exact hnew (List.mem_append_right _ (e ▸ hx))
        · intro p hp
          rcases List.mem_append.1 hp with hp | hp
          · exact hf.fresh p hp
          · rw [List.mem_singleton.1 hp]
            exact fun h => hnew (List.mem_append_left _ h)
        · intro p hp
          rcases List.mem_append.1 hp with hp | hp
          · exact hf.hit p hp
          · rw [List.mem_singleton.1 hp]
            exact ⟨v, hv, hcex.symm, hval⟩
      obtain ⟨S3, ps, r, e3, c1, c2, c3, c4, c5⟩ := ih (acc ++ [S1.cex]) (some false) S2 hb2 hF (by simp)
      refine ⟨S3, ps, r, e3, c1, c2, by simp at c3; omega, fun hr _ => ?_, c5⟩
      have := c4 hr rfl
      simp at this; omega
    | some true, a6, a7 =>
      refine ⟨S1, acc, some true, rfl, hb1, hf, by omega, by simp, fun _ v hv hr => ?_⟩
      by_contra hno
      obtain ⟨s, hs, ha⟩ := hS.complete v hv
      refine a6 rfl s ?_ ?_
      · rw [h5, satisfies_append]
        refine ⟨hs, (h6 s).2 ?_⟩
        rw [ha.pattern hS]; exact hno
      · intro m hm
        rw [List.mem_singleton.1 hm, litTrue_cond, ha.1 root hk l hl, hr]
        cases value <;> simp
    | none, a6, a7 => exact ⟨S1, acc, none, rfl, hb1, hf, by omega, by simp, by simp⟩

theorem generate_inv {E : Env} (hE : Right E) {N : Aig} {S : State} (h : Inv N S []) {root : Nat} (hr : root < N.nodes.length) (value : Bool)
    {blocked : List (List Bool)} (hb : ∀ p ∈ blocked, p.length = N.numPis) (num : Nat) :
    ∃ S' ps last, generatePattern E N root value blocked num S = some (S', ps, last) ∧ Inv N S' [] ∧ Found N root value blocked ps ∧
      ps.length ≤ num ∧ (last = some false → ps.length = num) ∧
      (last = some true → ∀ v, N.Models v → v root = value → pattern N v ∈ blocked ++ ps) := by
  obtain ⟨S1, l, e1, i1, g1, k1, hl⟩ := need_spec h hr
  obtain ⟨S2, e2, b2⟩ := blockAll_spec i1 blocked S1 [] ⟨rfl, rfl, rfl, i1.cex, [], by simp, fun s => by simp [Satisfies]⟩ hb
  obtain ⟨S3, ps, r, e3, c1, c2, c3, c4, c5⟩ := generateLoop_spec hE i1 k1 hl value blocked num [] (some false) S2 (by simpa using b2)
    ⟨List.nodup_nil, by simp, by simp⟩ (by simp)
  have i4 : Inv N (pop S1 S3) [] := i1.congr c1.1 rfl rfl rfl c1.2.2.2.1 fun t ht => ht
  obtain ⟨S5, e5, i5, _⟩ := finish_spec (E := E) i4 (ps, r)
  refine ⟨S5, ps, r, ?_, i5, c2, by simpa using c3, fun hr => by simpa using c4 hr rfl, c5⟩
  unfold generatePattern
  rw [e1]
  dsimp only
  rw [hl]
  dsimp only
  rw [e2]
  dsimp only
  rw [e3]
  exact e5

/-! ### all reachable states -/

theorem piLits_spec : ∀ (xs : List Nat) (i : Nat) (m : List Nat), xs.Nodup → (∀ n ∈ xs, n < m.length) →
    ∃ m', piLits xs i m = some m' ∧ m'.length = m.length ∧ (∀ n, n ∉ xs → m'[n]? = m[n]?) ∧
      ∀ (j n : Nat), xs[j]? = some n → m'[n]? = some (2 * (i + j + 1)) := by
  intro xs
  induction xs with
  | nil => intro i m _ _; exact ⟨m, rfl, rfl, fun _ _ => rfl, fun j n h => by simp at h⟩
  | cons a xs ih =>
    intro i m hnd hlt
    obtain ⟨h1, h2⟩ := List.nodup_cons.1 hnd
    obtain ⟨m', e, q1, q2, q3⟩ := ih (i + 1) (m.set a (2 * (i + 1))) h2 fun n hn => by
      rw [List.length_set]; exact hlt n (List.mem_cons_of_mem _ hn)
    refine ⟨m', by rw [piLits, if_pos (hlt a List.mem_cons_self)]; exact e, by simpa using q1, fun n hn => ?_, fun j n hj => ?_⟩
    · simp only [List.mem_cons, not_or] at hn
      rw [q2 n hn.2, List.getElem?_set_ne (Ne.symm hn.1)]
    · cases j with
      | zero =>
        obtain rfl : a = n := by simpa using hj
        rw [q2 a h1, List.getElem?_set_self (hlt a List.mem_cons_self)]
      | succ j =>
        rw [q3 j n (by simpa using hj)]
        congr 2; omega

theorem init_spec {N : Aig} (hN : Built N) : ∃ S, init N = some S ∧ Inv N S [] := by
  have hp := numPis_le hN
  obtain ⟨m, e, q1, q2, q3⟩ := piLits_spec (N.inputs.take N.numPis) 0 (List.replicate N.size 0) (hN.wf.inputsNodup.take) fun n hn => by
    rw [List.length_replicate]; exact (hN.wf.inputs_lt (List.mem_of_mem_take hn)).2
  have hz : m[0]? = some 0 := by
    rw [q2 0 fun h => absurd (hN.wf.inputs_lt (List.mem_of_mem_take h)).1 (by omega)]
    exact List.getElem?_replicate.trans (if_pos hN.wf.pos)
  have hpis : ∀ i n : Nat, i < N.numPis → N.inputs[i]? = some n → m[n]? = some (2 * (i + 1)) := fun i n hi hn => by
    rw [q3 i n (by rw [List.getElem?_take_of_lt hi]; exact hn)]; congr 2; omega
  obtain ⟨S, e', i, _⟩ := restart_raw (S := ⟨m, [], 0, [], 0, 0, List.replicate N.numPis false⟩) hN.wf hp (by rw [q1, List.length_replicate]; rfl) hz hpis
    (by simp)
  exact ⟨S, by unfold init; rw [e]; exact e', i⟩

theorem inv_and {N : Aig} {S : State} (h : Inv N S []) {a b : Sig} (ha : N.Valid a) (hb : N.Valid b) :
    Inv (N.createAnd a b).1 (onAdd (N.createAnd a b).1 S) [] := by
  have g := Aig.createAnd_spec h.wf ha hb
  unfold onAdd
  split
  · rename_i hlt
    refine h.grow g.wf g.ext g.inputs g.numPis ?_ fun n hn => ?_
    · rw [List.length_append, List.length_replicate]
      unfold Aig.size at hlt ⊢
      omega
    · exact List.getElem?_append_left (by rw [h.len]; exact hn)
  · rename_i hlt
    have := h.len
    have := g.ext.len
    exact h.grow g.wf g.ext g.inputs g.numPis (by unfold Aig.size at hlt; omega) fun _ _ => rfl

theorem inv_same {N N' : Aig} {S : State} (h : Inv N S []) (hw : WF N') (hx : Aig.Ext N N') (hlen : N'.nodes.length = N.nodes.length)
    (hi : N'.inputs = N.inputs) (hp : N'.numPis = N.numPis) : Inv N' S [] :=
  h.grow hw hx hi hp (by rw [hlen]; exact h.len) fun _ _ => rfl

theorem reach_inv {E : Env} (hE : Right E) {N : Aig} {S : State} (h : Reach E N S) : Built N ∧ Inv N S [] := by
  induction h with
  | init hN e =>
    obtain ⟨S', e', i⟩ := init_spec hN
    rw [e] at e'
    obtain rfl := Option.some.inj e'
    exact ⟨hN, i⟩
  | signals f d _ hf hd e ih =>
    obtain ⟨S', r, e', i, _⟩ := signals_inv hE ih.2 hf hd
    rw [e] at e'
    obtain ⟨rfl, rfl⟩ := Prod.mk.inj (Option.some.inj e')
    exact ⟨ih.1, i⟩
  | node root d _ hf hd e ih =>
    obtain ⟨S', r, e', i, _⟩ := node_inv hE ih.2 hf hd
    rw [e] at e'
    obtain ⟨rfl, rfl⟩ := Prod.mk.inj (Option.some.inj e')
    exact ⟨ih.1, i⟩
  | const root b _ hr e ih =>
    obtain ⟨S', r, e', i, _⟩ := const_inv hE ih.2 hr b
    rw [e] at e'
    obtain ⟨rfl, rfl⟩ := Prod.mk.inj (Option.some.inj e')
    exact ⟨ih.1, i⟩
  | circuit root divs c neg _ hr hd hne hc e ih =>
    obtain ⟨S', r, e', i, _⟩ := circuit_inv hE ih.2 hr hd hne hc neg
    rw [e] at e'
    obtain ⟨rfl, rfl⟩ := Prod.mk.inj (Option.some.inj e')
    exact ⟨ih.1, i⟩
  | generate root b blocked num _ hr hb e ih =>
    obtain ⟨S', ps, last, e', i, _⟩ := generate_inv hE ih.2 hr b hb num
    rw [e] at e'
    obtain ⟨rfl, rfl⟩ := Prod.mk.inj (Option.some.inj e')
    exact ⟨ih.1, i⟩
  | update _ e ih =>
    obtain ⟨S', e', i, _⟩ := restart_spec ih.2
    rw [e] at e'
    obtain rfl := Option.some.inj e'
    exact ⟨ih.1, i⟩
  | and a b _ ha hb ih =>
    exact ⟨.and ih.1 ha hb, inv_and ih.2 ha hb⟩
  | po f _ hf ih => exact ⟨.po ih.1 hf, inv_same ih.2 (ih.2.wf.createPo hf) (Aig.ext_createPo _ _) (by simp [Aig.createPo]) rfl rfl⟩
  | ri f r _ hf ih => exact ⟨.ri ih.1 hf, inv_same ih.2 (ih.2.wf.createRi hf) (Aig.ext_createRi _ _ _) (by simp [Aig.createRi]) rfl rfl⟩

/-! ### the theorems -/

/-- Two signals. -/
theorem C67_signals_partial {E : Env} (hE : Right E) {N : Aig} {S : State} (h : Reach E N S) {f d : Sig} (hf : N.Valid f) (hd : N.Valid d) :
    ∃ S' r, validateSig E N f d S = some (S', r) ∧ Reach E N S' ∧ Verdict N f.val d.val S'.cex r := by
  obtain ⟨S', r, e, _, vd⟩ := signals_inv hE (reach_inv hE h).2 hf hd
  exact ⟨S', r, e, .signals f d h hf hd e, vd⟩

/-- A node and a signal. -/
theorem C67_node_partial {E : Env} (hE : Right E) {N : Aig} {S : State} (h : Reach E N S) {root : Nat} {d : Sig} (hr : root < N.nodes.length)
    (hd : N.Valid d) :
    ∃ S' r, validateNode E N root d S = some (S', r) ∧ Reach E N S' ∧ Verdict N (fun v => v root) d.val S'.cex r := by
  obtain ⟨S', r, e, _, vd⟩ := node_inv hE (reach_inv hE h).2 hr hd
  exact ⟨S', r, e, .node root d h hr hd e, vd⟩

/-- A signal and a constant. -/
theorem C67_const_partial {E : Env} (hE : Right E) {N : Aig} {S : State} (h : Reach E N S) {f : Sig} (hf : N.Valid f) (b : Bool) :
    ∃ S' r, validateSigConst E N f b S = some (S', r) ∧ Reach E N S' ∧ Verdict N f.val (fun _ => b) S'.cex r := by
  obtain ⟨S', r, e, _, vd⟩ := const_inv hE (reach_inv hE h).2 hf (Bool.xor b f.compl)
  refine ⟨S', r, e, .const f.index _ h hf e, fun hr v hv => ?_, fun hr => ?_⟩
  · have := vd.1 hr v hv
    unfold Sig.val
    dsimp only at this ⊢
    rw [this]
    cases f.compl <;> cases b <;> rfl
  · obtain ⟨v, hv, hp, hne⟩ := vd.2 hr
    refine ⟨v, hv, hp, ?_⟩
    unfold Sig.val
    dsimp only at hne ⊢
    revert hne
    cases f.compl <;> cases b <;> cases v f.index <;> decide

/-- A signal and a circuit over the divisors `divs`. -/
theorem C67_circuit_partial {E : Env} (hE : Right E) {N : Aig} {S : State} (h : Reach E N S) {f : Sig} (hf : N.Valid f) {divs : List Nat}
    (hd : ∀ n ∈ divs, n < N.nodes.length) (hne : divs ≠ []) {c : List CGate} (hc : Legal divs.length c) (neg : Bool) :
    ∃ S' r, validateSigCircuit E N f divs c neg S = some (S', r) ∧ Reach E N S' ∧
      (r = some true → ∀ v, N.Models v → (output c (divs.map v)).map (Bool.xor neg) = some (f.val v)) ∧
      (r = some false → ∃ v, N.Models v ∧ pattern N v = S'.cex ∧ (output c (divs.map v)).map (Bool.xor neg) = some (!f.val v)) := by
  obtain ⟨S', r, e, _, vd⟩ := circuit_inv hE (reach_inv hE h).2 hf hd hne hc (Bool.xor neg f.compl)
  have key : ∀ (x : Option Bool) (y : Bool), x.map (Bool.xor (Bool.xor neg f.compl)) = some y → x.map (Bool.xor neg) = some (Bool.xor f.compl y) := by
    intro x y
    cases x with
    | none => simp
    | some x => cases neg <;> cases f.compl <;> cases x <;> cases y <;> decide
  refine ⟨S', r, e, .circuit f.index divs c _ h hf hd hne hc e, fun hr v hv => key _ _ (vd.1 hr v hv), fun hr => ?_⟩
  obtain ⟨v, hv, hp, hx⟩ := vd.2 hr
  refine ⟨v, hv, hp, (key _ _ hx).trans ?_⟩
  unfold Sig.val
  cases f.compl <;> cases v f.index <;> rfl

/-- Without registers the pattern decides all values: every assignment with the values of `cex` at the inputs tells the signals apart. -/
theorem C67_pattern_partial {E : Env} (hE : Right E) {N : Aig} {S S' : State} (h : Reach E N S) {f d : Sig} (hf : N.Valid f) (hd : N.Valid d)
    (hreg : N.inputs.length = N.numPis) (e : validateSig E N f d S = some (S', some false)) :
    ∀ v, N.Models v → N.inputs.map v = S'.cex → f.val v ≠ d.val v := by
  intro v hv hp
  obtain ⟨hb, hi⟩ := reach_inv hE h
  obtain ⟨S1, r, e1, _, vd⟩ := signals_inv hE hi hf hd
  rw [e] at e1
  obtain ⟨rfl, rfl⟩ := Prod.mk.inj (Option.some.inj e1)
  obtain ⟨w, hw, hq, hne⟩ := vd.2 rfl
  have hx : N.inputs.map v = N.inputs.map w := by
    rw [hp, ← hq]
    unfold pattern
    rw [← hreg, List.take_length]
  have hval : ∀ n, n < N.nodes.length → v n = w n := by
    let x : Nat → Bool := fun k => match N.inputs[k]? with | some n => v n | none => false
    have c1 : N.Consistent x v := ⟨hv, fun k n hk => by show v n = (match N.inputs[k]? with | some n => v n | none => false); rw [hk]⟩
    have c2 : N.Consistent x w := ⟨hw, fun k n hk => by
      show w n = (match N.inputs[k]? with | some n => v n | none => false)
      rw [hk]
      have := congrArg (·[k]?) hx
      simp only [List.getElem?_map, hk, Option.map_some, Option.some.injEq] at this
      exact this.symm⟩
    exact hb.wf.unique c1 c2
  have hs : ∀ s : Sig, N.Valid s → s.val v = s.val w := fun s hs => by
    unfold Sig.val; rw [hval _ hs]
  rw [hs f hf, hs d hd]
  exact hne

theorem solveWith_decides {E : Env} (hE : ∀ k cs as, E.solve k cs as ≠ .timeout) {N : Aig} {S S' : State} {as : List Nat} {r : Option Bool}
    (e : solveWith E N as S = some (S', r)) : r ≠ none := by
  unfold solveWith at e
  split at e
  · split at e
    · obtain ⟨_, rfl⟩ := Prod.mk.inj (Option.some.inj e); simp
    · cases e
  · obtain ⟨_, rfl⟩ := Prod.mk.inj (Option.some.inj e); simp
  · rename_i ht
    exact absurd ht (hE _ _ _)

theorem finish_answer {α : Type} {E : Env} {N : Aig} {o : Option (State × α)} {S : State} {r : α} (e : finish E N o = some (S, r)) : ∃ T, o = some (T, r) := by
  unfold finish at e
  split at e
  · cases e
  · split at e
    · split at e
      · cases e
      · obtain ⟨_, rfl⟩ := Prod.mk.inj (Option.some.inj e); exact ⟨_, rfl⟩
    · obtain ⟨_, rfl⟩ := Prod.mk.inj (Option.some.inj e); exact ⟨_, rfl⟩

theorem validateLit_decides {E : Env} (hE : ∀ k cs as, E.solve k cs as ≠ .timeout) {N : Aig} {root lit : Nat} {S S' : State} {r : Option Bool}
    (e : validateLit E N root lit S = some (S', r)) : r ≠ none := by
  unfold validateLit at e
  split at e
  · cases e
  · split at e
    · cases e
    · exact solveWith_decides hE e

/-- If the solver never gives up, `validate` decides whether two signals have the same function. -/
theorem C67_decides_partial {E : Env} (hE : Right E) (ht : ∀ k cs as, E.solve k cs as ≠ .timeout) {N : Aig} {S : State} (h : Reach E N S) {f d : Sig}
    (hf : N.Valid f) (hd : N.Valid d) :
    ∃ S' b, validateSig E N f d S = some (S', some b) ∧ (b = true ↔ ∀ v, N.Models v → f.val v = d.val v) := by
  obtain ⟨S', r, e, _, vd⟩ := C67_signals_partial hE h hf hd
  have hr : r ≠ none := by
    unfold validateSig at e
    split at e
    · cases e
    · split at e
      · cases e
      · obtain ⟨T, eT⟩ := finish_answer e
        exact validateLit_decides ht eT
  cases r with
  | none => exact absurd rfl hr
  | some b =>
    refine ⟨S', b, e, fun hb => vd.1 (by rw [hb]), fun hall => ?_⟩
    cases b with
    | true => rfl
    | false =>
      obtain ⟨v, hv, _, hne⟩ := vd.2 rfl
      exact absurd (hall v hv) hne

/-! ### examples and counterexamples -/

/-- a solver that decides everything; restart after 20 calls with more than one clause -/
def env : Env := ⟨true, 1, Choice.Prover.search, fun _ cs => cs.length⟩

theorem env_right : Right env := by
  intro k cs as
  show match Choice.Prover.search k cs as with
    | .sat a => Satisfies a cs ∧ ∀ l ∈ as, LitTrue a l
    | .unsat => ∀ a, Satisfies a cs → ¬ ∀ l ∈ as, LitTrue a l
    | .timeout => True
  match hs : Choice.Prover.search k cs as with
  | .sat a => exact Choice.Prover.search_right k cs as a hs
  | .unsat => exact fun a ha hl => Choice.Prover.search_sound k cs as hs a ha hl
  | .timeout => trivial

/-- two inputs, a register output, the gates `4 = 1 ∧ 2` and `5 = 1 ∧ ¬ 4` -/
def net : Aig :=
  let N := (Aig.empty.createPi.1.createPi.1.createRo.1)
  let N := (N.createAnd ⟨1, false⟩ ⟨2, false⟩).1
  (N.createAnd ⟨1, false⟩ ⟨4, true⟩).1

theorem net_built : Built net := by
  refine .and (.and (.ro (.pi (.pi .empty))) ?_ ?_) ?_ ?_ <;> unfold Aig.Valid <;> decide

/-- the session: `5` and `1` differ for `1 = 2 = 1`; then the gate `6 = 5 ∧ ¬ 2` is added, which is equal to `5`; then `1 ∧ ¬ 2` as a circuit -/
def s0 : Option State := init net
def s1 : Option (State × Option Bool) := s0.bind fun S => validateSig env net ⟨5, false⟩ ⟨1, false⟩ S
def net' : Aig := (net.createAnd ⟨5, false⟩ ⟨2, true⟩).1
def s2 : Option (State × Option Bool) := s1.bind fun p => validateSig env net' ⟨6, true⟩ ⟨5, true⟩ (onAdd net' p.1)
def s3 : Option (State × Option Bool) := s2.bind fun p => validateSigCircuit env net' ⟨5, true⟩ [1, 2, 3]
  [⟨[(0, false), (1, true)], .and⟩, ⟨[(3, false), (0, false), (0, true)], .xor⟩] false p.1

example : s1.map (fun p => (p.2, p.1.cex)) = some (some false, [true, true]) := by decide +kernel
example : s2.map (fun p => p.2) = some (some true) := by decide +kernel
example : s3.map (fun p => p.2) = some (some true) := by decide +kernel
example : Legal 3 [⟨[(0, false), (1, true)], .and⟩, ⟨[(3, false), (0, false), (0, true)], .xor⟩] := by decide

/-- the states of the session are reachable, with every solver that is right -/
example : ∃ S, Reach env net' S := by
  obtain ⟨S, e, _⟩ := init_spec net_built
  have v : ∀ n c, n < 6 → net.Valid ⟨n, c⟩ := fun n c hn => by
    have : net.nodes.length = 6 := by decide +kernel
    show n < _
    omega
  obtain ⟨S', r, _, hr, _⟩ := C67_signals_partial env_right (.init net_built e) (v 5 false (by omega)) (v 1 false (by omega))
  exact ⟨_, .and _ _ hr (v 5 false (by omega)) (v 2 true (by omega))⟩

/-- Full statement fails for inputs created after the validator: the callback is called for gates only. Node 2 is an input of `late`, created after
the validator, and node 3 is a gate; `validate` says that the input is constant 0. -/
def late : Aig := (((Aig.empty.createPi.1).createPi.1).createAnd ⟨1, false⟩ ⟨2, false⟩).1

theorem C67_violated_input :
    ((init Aig.empty.createPi.1).bind fun S => validateSigConst env late ⟨2, false⟩ false (onAdd late S)).map (fun p => p.2) = some (some true) ∧
      ∃ v, late.Models v ∧ (⟨2, false⟩ : Sig).val v = true := by
  refine ⟨by decide +kernel, ?_⟩
  have hb : Built late := .and (.pi (.pi .empty)) (by unfold Aig.Valid; decide) (by unfold Aig.Valid; decide)
  have hv := hb.wf.consistent_value fun _ => true
  exact ⟨_, hv.models, by have := hv.input 1 2 (by decide +kernel); simpa [Sig.val] using this⟩

/-- Without the gate the literal of the new input is read out of range. -/
theorem C67_undefined_input :
    ((init Aig.empty.createPi.1).bind fun S => validateSigConst env (Aig.empty.createPi.1.createPi.1) ⟨2, false⟩ false S) = none := by decide +kernel

/-- A circuit with an AND gate of three fanins gets no clauses (the assertion is off), so the gate is an arbitrary value: the constant circuit
`1 ∧ 1 ∧ ¬ 1` is said to differ from the constant 0. -/
theorem C67_violated_gate :
    ((init net).bind fun S => validateSigCircuit env net ⟨0, false⟩ [1] [⟨[(0, false), (0, false), (0, true)], .and⟩] false S).map (fun p => p.2) =
      some (some false) ∧ ∀ x, output [⟨[(0, false), (0, false), (0, true)], .and⟩] [x] = some false := by
  refine ⟨by decide +kernel, fun x => by cases x <;> rfl⟩

end Verif.Validator
