import Verif.Choice.Prover
import Verif.Choice.DeriveProof
import Verif.Choice.ClassesProof
import Verif.Props.C40
import Verif.Props.C43

set_option autoImplicit false

/-!
# The clauses of the SAT prover
-/

namespace Verif.Choice.Prover
open Aig (WF Ext Built)
open Cnf (makeLit litNot Answer nvars LitTrue Satisfies litTrue_not satisfies_append)

/-- value of the variable of a node: the value of the node, complemented if `polar_flip` is set and the phase is 1 -/
def pol (flip : Bool) (F : Aig) (w : Nat → Bool) (n : Nat) : Bool := Bool.xor (w n) (flip && F.phaseOf n)

/-- the assignment has the value of the node at its variable -/
def Agrees (flip : Bool) (F : Aig) (m : List Nat) (a w : Nat → Bool) (n : Nat) : Prop := ∀ v, m[n]? = some v → a v = pol flip F w n

/-- the node has a variable -/
def Has (m : List Nat) (n : Nat) : Prop := ∃ v, v ≠ 0 ∧ m[n]? = some v

theorem litTrue_makeLit (a : Nat → Bool) (v : Nat) (c : Bool) : LitTrue a (makeLit v c) ↔ a v = !c := by
  unfold LitTrue makeLit
  cases c
  · have h1 : (2 * v + if false = true then 1 else 0) / 2 = v := by simp
    have h2 : (2 * v + if false = true then 1 else 0) % 2 = 0 := by simp
    rw [h1, h2]; simp
  · have h1 : (2 * v + if true = true then 1 else 0) / 2 = v := by simp; omega
    have h2 : (2 * v + if true = true then 1 else 0) % 2 = 1 := by simp
    rw [h1, h2]; simp

theorem makeLit_var (v : Nat) (c : Bool) : makeLit v c / 2 = v := by
  unfold makeLit; cases c <;> simp; omega

theorem litNot_var (l : Nat) : litNot l / 2 = l / 2 := by
  unfold litNot; split <;> omega

/-- what a literal stands for -/
def LitSpec (flip : Bool) (F : Aig) (m : List Nat) (p : Nat × Bool) (l : Nat) : Prop :=
  m[p.1]? = some (l / 2) ∧ ∀ a w, Agrees flip F m a w p.1 → (LitTrue a l ↔ w p.1 = !p.2)

theorem lit_spec {flip : Bool} {F : Aig} {m : List Nat} {p : Nat × Bool} (hm : Has m p.1) (hn : p.1 < F.nodes.length) :
    ∃ l, lit flip F m p.1 p.2 = some l ∧ LitSpec flip F m p l := by
  obtain ⟨n, c⟩ := p
  obtain ⟨v, _, hv⟩ := hm
  have hnd := List.getElem?_eq_getElem hn
  simp only at hv hn hnd ⊢
  have hph : F.phaseOf n = F.nodes[n].phase := by simp [Aig.phaseOf, hnd]
  refine ⟨_, by rw [lit, hv, hnd], ?_, ?_⟩
  · simp only
    split
    · rw [litNot_var, makeLit_var, hv]
    · rw [makeLit_var, hv]
  · intro a w ha
    have := ha v hv
    rw [pol, hph] at this
    simp only at this ⊢
    cases hf : (flip && F.nodes[n].phase)
    · rw [if_neg (by simp), litTrue_makeLit, this, hf, Bool.xor_false]
    · rw [if_pos rfl, litTrue_not, litTrue_makeLit, this, hf]
      cases w n <;> cases c <;> simp

theorem lits_spec {flip : Bool} {F : Aig} {m : List Nat} : ∀ {c : List (Nat × Bool)}, (∀ p ∈ c, Has m p.1 ∧ p.1 < F.nodes.length) →
    ∃ ls, lits flip F m c = some ls ∧ List.Forall₂ (LitSpec flip F m) c ls
  | [], _ => ⟨[], rfl, .nil⟩
  | p :: c, h => by
      obtain ⟨l, e, hl⟩ := lit_spec (flip := flip) (h p List.mem_cons_self).1 (h p List.mem_cons_self).2
      obtain ⟨ls, e2, hls⟩ := lits_spec (c := c) fun q hq => h q (List.mem_cons_of_mem _ hq)
      exact ⟨l :: ls, by rw [lits, e, e2], .cons hl hls⟩

theorem forall₂_any {flip : Bool} {F : Aig} {m : List Nat} {a w : Nat → Bool} : ∀ {c : List (Nat × Bool)} {ls : List Nat},
    List.Forall₂ (LitSpec flip F m) c ls → (∀ p ∈ c, Agrees flip F m a w p.1) →
    ((∃ l ∈ ls, LitTrue a l) ↔ ∃ p ∈ c, w p.1 = !p.2)
  | _, _, .nil, _ => by simp
  | _, _, .cons h t, ha => by
      have h1 := h.2 a w (ha _ List.mem_cons_self)
      have h2 := forall₂_any t fun p hp => ha p (List.mem_cons_of_mem _ hp)
      simp only [List.mem_cons, exists_eq_or_imp, h1, h2]

theorem forall₂_all {flip : Bool} {F : Aig} {m : List Nat} {a w : Nat → Bool} : ∀ {c : List (Nat × Bool)} {ls : List Nat},
    List.Forall₂ (LitSpec flip F m) c ls → (∀ p ∈ c, Agrees flip F m a w p.1) →
    ((∀ l ∈ ls, LitTrue a l) ↔ ∀ p ∈ c, w p.1 = !p.2)
  | _, _, .nil, _ => by simp
  | _, _, .cons h t, ha => by
      have h1 := h.2 a w (ha _ List.mem_cons_self)
      have h2 := forall₂_all t fun p hp => ha p (List.mem_cons_of_mem _ hp)
      simp only [List.mem_cons, forall_eq_or_imp, h1, h2]

theorem addClauses_spec {flip : Bool} {F : Aig} : ∀ (cs : List (List (Nat × Bool))) (P : Prover),
    (∀ c ∈ cs, ∀ p ∈ c, Has P.vars p.1 ∧ p.1 < F.nodes.length) →
    ∃ new, addClauses flip F cs P = some { P with clauses := P.clauses ++ new } ∧
      ∀ a w, (∀ c ∈ cs, ∀ p ∈ c, Agrees flip F P.vars a w p.1) → (Satisfies a new ↔ ∀ c ∈ cs, ∃ p ∈ c, w p.1 = !p.2)
  | [], P, _ => ⟨[], by simp [addClauses], by simp [Satisfies]⟩
  | c :: cs, P, h => by
      obtain ⟨ls, e, hls⟩ := lits_spec (flip := flip) (h c List.mem_cons_self)
      obtain ⟨new, e2, h2⟩ := addClauses_spec cs { P with clauses := P.clauses ++ [ls] } fun d hd => h d (List.mem_cons_of_mem _ hd)
      refine ⟨ls :: new, ?_, ?_⟩
      · rw [addClauses, e]; dsimp only; rw [e2]; simp
      · intro a w ha
        rw [Cnf.satisfies_cons, forall₂_any hls (ha c List.mem_cons_self), h2 a w fun d hd => ha d (List.mem_cons_of_mem _ hd)]
        simp

/-- the clauses force the value of the node from the values of smaller nodes with variables -/
def Encoded (flip : Bool) (F : Aig) (P : Prover) (n : Nat) : Prop :=
  ∃ ks : List Nat, (∀ k ∈ ks, k < n ∧ Has P.vars k) ∧
    ∀ a, Satisfies a P.clauses → ∀ w, F.Models w → (∀ k ∈ ks, Agrees flip F P.vars a w k) → Agrees flip F P.vars a w n

/-- invariant: `todo` are the nodes that have a variable but no clauses yet -/
structure Ok (flip : Bool) (F : Aig) (P : Prover) (todo : List Nat) : Prop where
  len : F.nodes.length ≤ P.vars.length
  zero : P.vars[0]? = some 1
  mapped : ∀ n v : Nat, P.vars[n]? = some v → v ≠ 0 → n < F.nodes.length ∧ v < P.satVars
  inj : ∀ n m v : Nat, v ≠ 0 → P.vars[n]? = some v → P.vars[m]? = some v → n = m
  used : ∀ n v : Nat, P.vars[n]? = some v → v ≠ 0 → n = 0 ∨ n ∈ P.used
  pos : 0 < P.satVars
  count : P.satVars + P.vars.count 0 = P.vars.length + 1
  sound : ∀ w, F.Models w → ∀ a, (∀ n, Has P.vars n → Agrees flip F P.vars a w n) → Satisfies a P.clauses
  enc : ∀ n, Has P.vars n → n ∈ todo ∨ n ∈ F.inputs ∨ Encoded flip F P n

/-- all variables are kept -/
def Grows (P P' : Prover) : Prop := P'.vars.length = P.vars.length ∧ ∀ n v : Nat, v ≠ 0 → P.vars[n]? = some v → P'.vars[n]? = some v

theorem Grows.refl (P : Prover) : Grows P P := ⟨rfl, fun _ _ _ h => h⟩

theorem Grows.trans {P P' P'' : Prover} (h : Grows P P') (h' : Grows P' P'') : Grows P P'' :=
  ⟨h'.1.trans h.1, fun n v hv hn => h'.2 n v hv (h.2 n v hv hn)⟩

theorem Grows.has {P P' : Prover} (h : Grows P P') {n : Nat} : Has P.vars n → Has P'.vars n := fun ⟨v, hv, hn⟩ => ⟨v, hv, h.2 n v hv hn⟩

theorem Grows.agrees {flip : Bool} {F : Aig} {P P' : Prover} (h : Grows P P') {a w : Nat → Bool} {n : Nat} (hn : Has P.vars n) :
    Agrees flip F P'.vars a w n ↔ Agrees flip F P.vars a w n := by
  obtain ⟨v, hv, hn⟩ := hn
  unfold Agrees
  rw [hn, h.2 n v hv hn]

theorem Encoded.grow {flip : Bool} {F : Aig} {P P' : Prover} (h : Grows P P') (hc : ∀ a, Satisfies a P'.clauses → Satisfies a P.clauses)
    {n : Nat} (hn : Has P.vars n) (he : Encoded flip F P n) : Encoded flip F P' n := by
  obtain ⟨ks, h1, h2⟩ := he
  refine ⟨ks, fun k hk => ⟨(h1 k hk).1, h.has (h1 k hk).2⟩, fun a ha w hw hk => ?_⟩
  rw [h.agrees hn]
  exact h2 a (hc a ha) w hw fun k hk' => (h.agrees (h1 k hk').2).1 (hk k hk')

theorem phase_pol {flip : Bool} {F F' : Aig} (he : Ext F F') {n : Nat} (hn : n < F.nodes.length) (w : Nat → Bool) :
    pol flip F' w n = pol flip F w n := by
  rw [pol, pol, phase_ext he hn]

theorem Ok.ext {flip : Bool} {F F' : Aig} {P : Prover} {todo : List Nat} (h : Ok flip F P todo) (he : Ext F F')
    (hl : F'.nodes.length ≤ P.vars.length) : Ok flip F' P todo := by
  have hag : ∀ {a w : Nat → Bool} {n : Nat}, Has P.vars n → (Agrees flip F' P.vars a w n ↔ Agrees flip F P.vars a w n) := by
    rintro a w n ⟨v, hv, hn⟩
    unfold Agrees
    rw [phase_pol he (h.mapped n v hn hv).1]
  refine ⟨hl, h.zero, fun n v hn hv => ⟨Nat.lt_of_lt_of_le (h.mapped n v hn hv).1 he.len, (h.mapped n v hn hv).2⟩, h.inj, h.used, h.pos, h.count, ?_, ?_⟩
  · intro w hw a ha
    exact h.sound w (he.models hw) a fun n hn => (hag hn).1 (ha n hn)
  · intro n hn
    refine (h.enc n hn).imp_right (Or.imp (fun hi => he.inputs.subset hi) ?_)
    rintro ⟨ks, h1, h2⟩
    exact ⟨ks, h1, fun a ha w hw hk => (hag hn).2 (h2 a ha w (he.models hw) fun k hk' => (hag (h1 k hk').2).1 (hk k hk'))⟩

/-- the clauses determine the values of all nodes with variables from those of the inputs -/
theorem Ok.complete {flip : Bool} {F : Aig} {P : Prover} (h : Ok flip F P []) {a w : Nat → Bool} (ha : Satisfies a P.clauses)
    (hw : F.Models w) (hi : ∀ n ∈ F.inputs, Has P.vars n → Agrees flip F P.vars a w n) : ∀ n, Has P.vars n → Agrees flip F P.vars a w n := by
  intro n
  induction n using Nat.strong_induction_on with
  | _ n ih =>
    intro hn
    rcases h.enc n hn with h1 | h1 | ⟨ks, h1, h2⟩
    · simp at h1
    · exact hi n h1 hn
    · exact h2 a ha w hw fun k hk => ih k (h1 k hk).1 (h1 k hk).2

/-- an assignment for a valuation -/
theorem Ok.assignment {flip : Bool} {F : Aig} {P : Prover} {todo : List Nat} (h : Ok flip F P todo) (w : Nat → Bool) :
    ∃ a, ∀ n, Has P.vars n → Agrees flip F P.vars a w n := by
  classical
  refine ⟨fun v => if hx : ∃ n, P.vars[n]? = some v then pol flip F w hx.choose else false, ?_⟩
  rintro n ⟨v, hv, hn⟩ u hu
  rw [hn] at hu
  obtain rfl := Option.some.inj hu
  have hx : ∃ n, P.vars[n]? = some v := ⟨n, hn⟩
  simp only
  rw [dif_pos hx, h.inj _ _ v hv hx.choose_spec hn]

theorem recycle_get (used : List Nat) : ∀ (m : List Nat) (n : Nat), (used.foldl (fun m n => m.set n 0) m)[n]? =
    if n ∈ used ∧ n < m.length then some 0 else m[n]? := by
  intro m n
  have := setReprs_get used 0 m n
  simpa [setReprs] using this

theorem fresh_ok {flip : Bool} {F : Aig} (hF : Built F) {P : Prover} {size : Nat} (hl : F.nodes.length ≤ size)
    (hc : P.clauses = [[makeLit 1 true]]) (hm : ∀ n : Nat, P.vars[n]? = if n = 0 then some 1 else if n < size then some 0 else none)
    (hs : P.satVars = 2) : Ok flip F P [] := by
  have hpos := hF.wf.pos
  have hvars : P.vars = 1 :: List.replicate (size - 1) 0 := by
    refine List.ext_getElem? fun n => ?_
    rw [hm]
    cases n with
    | zero => rfl
    | succ n =>
        rw [if_neg (by omega), List.getElem?_cons_succ, List.getElem?_replicate]
        by_cases h : n + 1 < size
        · rw [if_pos h, if_pos (by omega)]
        · rw [if_neg h, if_neg (by omega)]
  have h1 : ∀ n v : Nat, P.vars[n]? = some v → v ≠ 0 → n = 0 ∧ v = 1 := by
    intro n v hn hv
    rw [hm] at hn
    split at hn
    · next h => exact ⟨h, by simpa using hn.symm⟩
    · split at hn
      · exact absurd (by simpa using hn.symm) hv
      · cases hn
  have hph : F.phaseOf 0 = false := by
    obtain ⟨z, hz, hz0⟩ := models_inputs hF.wf (fun _ => false)
    rw [models_zero hF hz hz0 0 hpos, hz.const]
  have hz : P.vars[0]? = some 1 := by rw [hm]; rfl
  have hag : ∀ a w, F.Models w → (Agrees flip F P.vars a w 0 ↔ a 1 = false) := by
    intro a w hw
    unfold Agrees
    rw [hz]
    simp [pol, hw.const, hph]
  have hsat : ∀ a, Satisfies a P.clauses ↔ a 1 = false := by
    intro a
    rw [hc]
    simp [Satisfies, litTrue_makeLit]
  refine ⟨?_, hz, ?_, ?_, ?_, by omega, ?_, ?_, ?_⟩
  · rw [hvars]; simp; omega
  · intro n v hn hv; obtain ⟨rfl, rfl⟩ := h1 n v hn hv; exact ⟨hpos, by omega⟩
  · intro n m v hv hn hm; rw [(h1 n v hn hv).1, (h1 m v hm hv).1]
  · intro n v hn hv; exact Or.inl (h1 n v hn hv).1
  · rw [hs, hvars]; simp; omega
  · intro w hw a ha
    exact (hsat a).2 ((hag a w hw).1 (ha 0 ⟨1, by simp, hz⟩))
  · rintro n ⟨v, hv, hn⟩
    obtain ⟨rfl, rfl⟩ := h1 n v hn hv
    exact Or.inr (Or.inr ⟨[], by simp, fun a ha w hw _ => (hag a w hw).2 ((hsat a).1 ha)⟩)

theorem init_spec {flip : Bool} {F : Aig} (hF : Built F) {size : Nat} (hl : F.nodes.length ≤ size) :
    ∃ P, init size = some P ∧ Ok flip F P [] ∧ P.vars.length = size := by
  have hpos := hF.wf.pos
  refine ⟨_, by rw [init, if_neg (by omega)], fresh_ok hF hl rfl (fun n => ?_) rfl, by simp⟩
  simp only
  by_cases h0 : n = 0
  · subst h0; rw [if_pos rfl, List.getElem?_set_self (by simp; omega)]
  · rw [if_neg h0, List.getElem?_set, if_neg (by omega), List.getElem?_replicate]

theorem recycle_spec {flip : Bool} {F : Aig} (hF : Built F) {P : Prover} (h : Ok flip F P []) :
    Ok flip F P.recycle [] ∧ P.recycle.vars.length = P.vars.length := by
  have hpos := hF.wf.pos
  have hlen := h.len
  have hl : (P.used.foldl (fun m n => m.set n 0) P.vars).length = P.vars.length := setReprs_length P.used 0 P.vars
  refine ⟨fresh_ok hF hlen rfl (fun n => ?_) rfl, by simp [recycle, hl]⟩
  simp only [recycle]
  by_cases h0 : n = 0
  · subst h0; rw [if_pos rfl, List.getElem?_set_self (by rw [hl]; omega)]
  · rw [if_neg h0, List.getElem?_set, if_neg (by omega), recycle_get]
    by_cases hn : n < P.vars.length
    · rw [if_pos hn]
      split
      · rfl
      · next hu =>
        rw [List.getElem?_eq_getElem hn]
        by_contra hv
        have hv' : P.vars[n] ≠ 0 := fun e => hv (by rw [e])
        rcases h.used n _ (List.getElem?_eq_getElem hn) hv' with h1 | h1
        · exact h0 h1
        · exact hu ⟨h1, hn⟩
    · rw [if_neg hn, if_neg (fun h => hn h.2), List.getElem?_eq_none (by omega)]

theorem begin_spec {flip : Bool} {F : Aig} (hF : Built F) {P : Prover} (h : Ok flip F P []) (pp : SatParams) :
    Ok flip F (P.begin pp) [] ∧ (P.begin pp).vars.length = P.vars.length := by
  have h' : Ok flip F { P with calls := P.calls + 1 } [] := ⟨h.len, h.zero, h.mapped, h.inj, h.used, h.pos, h.count, h.sound, h.enc⟩
  rw [begin]
  dsimp only
  split
  · exact recycle_spec hF h'
  · exact ⟨h', rfl⟩

/-! ### adding nodes -/

theorem addFrontier_spec {flip : Bool} {F : Aig} (hF : WF F) {n : Nat} (hn : n < F.nodes.length) {P : Prover} {cur todo : List Nat}
    (h : Ok flip F P (cur ++ todo)) (hg : ∀ m ∈ todo, ∃ a b, F.IsGate m a b) (hh : ∀ m ∈ todo, Has P.vars m) :
    ∃ P' todo', addFrontier F n (P, todo) = some (P', todo') ∧ Ok flip F P' (cur ++ todo') ∧ (∀ m ∈ todo', ∃ a b, F.IsGate m a b) ∧
      (∀ m ∈ todo', Has P'.vars m) ∧ Grows P P' ∧
      Has P'.vars n ∧ todo'.length + P'.vars.count 0 ≤ todo.length + P.vars.count 0 := by
  have hl := h.len
  have hnv : P.vars[n]? = some P.vars[n] := List.getElem?_eq_getElem (by omega)
  generalize P.vars[n] = v at hnv
  rw [addFrontier]; dsimp only
  rw [hnv]; dsimp only
  by_cases hv : v ≠ 0
  · rw [if_pos hv]
    exact ⟨P, todo, rfl, h, hg, hh, .refl P, ⟨v, hv, hnv⟩, Nat.le_refl _⟩
  · rw [if_neg hv]
    obtain rfl : v = 0 := by omega
    have hn0 : n ≠ 0 := by rintro rfl; rw [h.zero] at hnv; simp at hnv
    rw [if_neg hn0, if_neg (by omega)]
    have hset : ∀ x : Nat, (P.vars.set n P.satVars)[x]? = if n = x then some P.satVars else P.vars[x]? := by
      intro x
      by_cases hx : n = x
      · subst hx; rw [List.getElem?_set_self (by omega), if_pos rfl]
      · rw [List.getElem?_set, if_neg hx, if_neg hx]
    have hpos := h.pos
    have hgr : ∀ u c, Grows P { P with used := u, vars := P.vars.set n P.satVars, satVars := c } := by
      intro u c
      refine ⟨by simp, fun x v hv hx => ?_⟩
      simp only
      rw [hset, if_neg, hx]
      rintro rfl
      rw [hnv] at hx
      exact hv (Option.some.inj hx).symm
    have hcnt : (P.vars.set n P.satVars).count 0 + 1 = P.vars.count 0 := by
      have hn' : n < P.vars.length := by omega
      have e1 := List.count_set (a := P.satVars) (b := 0) hn'
      have e2 : P.vars[n] = 0 := by rw [List.getElem?_eq_getElem hn'] at hnv; simpa using hnv
      have e3 : 0 < P.vars.count 0 := List.count_pos_iff.2 (by rw [← e2]; exact List.getElem_mem hn')
      rw [e1, e2]
      simp only [beq_self_eq_true, if_true]
      rw [if_neg (by simp; omega)]
      omega
    have hnew : Has (P.vars.set n P.satVars) n := ⟨P.satVars, by omega, by rw [hset, if_pos rfl]⟩
    refine ⟨_, _, rfl, ?_, ?_, ?_, hgr _ _, hnew, ?_⟩
    · refine ⟨by simpa using hl, by simp only; rw [hset, if_neg hn0]; exact h.zero, ?_, ?_, ?_, by simp, ?_, ?_, ?_⟩
      · intro x u hx hu
        simp only at hx ⊢
        rw [hset] at hx
        split at hx
        · next e => subst e; obtain rfl := Option.some.inj hx; exact ⟨hn, by omega⟩
        · have := h.mapped x u hx hu; exact ⟨this.1, by omega⟩
      · intro x y u hu hx hy
        simp only at hx hy
        rw [hset] at hx hy
        split at hx <;> split at hy
        · next e1 e2 => exact e1.symm.trans e2
        · obtain rfl := Option.some.inj hx
          have := (h.mapped y _ hy hu).2; omega
        · obtain rfl := Option.some.inj hy
          have := (h.mapped x _ hx hu).2; omega
        · exact h.inj x y u hu hx hy
      · intro x u hx hu
        simp only at hx ⊢
        rw [hset] at hx
        split at hx
        · next e => subst e; exact Or.inr (by simp)
        · exact (h.used x u hx hu).imp_right fun hm => List.mem_append_left _ hm
      · have := h.count
        simp only [List.length_set]
        omega
      · intro w hw a ha
        refine h.sound w hw a fun x hx => ?_
        exact ((hgr [] 0).agrees hx).1 (ha x ((hgr [] 0).has hx))
      · rintro x ⟨u, hu, hx⟩
        simp only at hx
        rw [hset] at hx
        by_cases hnx : n = x
        · subst hnx
          rcases hF.and_iff hn with ⟨ha, -⟩ | ⟨_, hno⟩
          · left; simp [ha]
          · right; left
            by_contra hni
            exact hno _ _ (hF.isGate_of (n := n) hn0 hni (List.getElem?_eq_getElem hn))
        · rw [if_neg hnx] at hx
          rcases h.enc x ⟨u, hu, hx⟩ with h1 | h1 | h1
          · left
            rcases List.mem_append.1 h1 with h1 | h1
            · exact List.mem_append_left _ h1
            · refine List.mem_append_right _ ?_
              split
              · exact List.mem_append_left _ h1
              · exact h1
          · exact Or.inr (Or.inl h1)
          · exact Or.inr (Or.inr (h1.grow (P' := { P with used := P.used ++ [n], vars := P.vars.set n P.satVars, satVars := P.satVars + 1 })
              (hgr _ _) (fun a h => h) ⟨u, hu, hx⟩))
    · intro m hm
      rcases hF.and_iff hn with ⟨ha, a, b, g, -⟩ | ⟨ha, -⟩
      · rw [if_pos ha, List.mem_append, List.mem_singleton] at hm
        rcases hm with hm | rfl
        · exact hg m hm
        · exact ⟨a, b, g⟩
      · rw [if_neg (by simp [ha])] at hm; exact hg m hm
    · intro m hm
      have hold : ∀ {m}, Has P.vars m → Has (P.vars.set n P.satVars) m := fun hm => (hgr [] 0).has hm
      split at hm
      · rcases List.mem_append.1 hm with hm | hm
        · exact hold (hh m hm)
        · rw [List.mem_singleton.1 hm]; exact hnew
      · exact hold (hh m hm)
    · simp only
      split <;> simp <;> omega

theorem addFanins_spec {flip : Bool} {F : Aig} (hF : WF F) : ∀ (l : List Sig) (P : Prover) (cur todo : List Nat),
    (∀ s ∈ l, s.index < F.nodes.length) → Ok flip F P (cur ++ todo) → (∀ m ∈ todo, ∃ a b, F.IsGate m a b) → (∀ m ∈ todo, Has P.vars m) →
    ∃ P' todo', addFanins F l (P, todo) = some (P', todo') ∧ Ok flip F P' (cur ++ todo') ∧ (∀ m ∈ todo', ∃ a b, F.IsGate m a b) ∧
      (∀ m ∈ todo', Has P'.vars m) ∧ Grows P P' ∧
      (∀ s ∈ l, Has P'.vars s.index) ∧ todo'.length + P'.vars.count 0 ≤ todo.length + P.vars.count 0
  | [], P, cur, todo, _, h, hg, hh => ⟨P, todo, rfl, h, hg, hh, .refl P, by simp, Nat.le_refl _⟩
  | s :: l, P, cur, todo, hl, h, hg, hh => by
      obtain ⟨P1, t1, e1, h1, g1, hh1, r1, k1, m1⟩ := addFrontier_spec hF (hl s List.mem_cons_self) h hg hh
      obtain ⟨P2, t2, e2, h2, g2, hh2, r2, k2, m2⟩ := addFanins_spec hF l P1 cur t1 (fun x hx => hl x (List.mem_cons_of_mem _ hx)) h1 g1 hh1
      refine ⟨P2, t2, by rw [addFanins, e1]; exact e2, h2, g2, hh2, r1.trans r2, fun x hx => ?_, by omega⟩
      rcases List.mem_cons.1 hx with rfl | hx
      · exact r2.has k1
      · exact k2 x hx

/-- clauses that say `n = f` -/
theorem addClauses_ok {flip : Bool} {F : Aig} {P : Prover} {n : Nat} {todo : List Nat} (h : Ok flip F P (n :: todo)) (hn : Has P.vars n)
    {ks : List Nat} (hk : ∀ k ∈ ks, k < n ∧ Has P.vars k) {cs : List (List (Nat × Bool))} (hcs : ∀ c ∈ cs, ∀ p ∈ c, p.1 = n ∨ p.1 ∈ ks)
    (f : (Nat → Bool) → Bool) (hf : ∀ w w' : Nat → Bool, (∀ k ∈ ks, w k = w' k) → f w = f w')
    (hiff : ∀ w : Nat → Bool, (∀ c ∈ cs, ∃ p ∈ c, w p.1 = !p.2) ↔ w n = f w) (hm : ∀ w, F.Models w → w n = f w) :
    ∃ P', addClauses flip F cs P = some P' ∧ Ok flip F P' todo ∧ P'.vars = P.vars := by
  have hhas : ∀ c ∈ cs, ∀ p ∈ c, Has P.vars p.1 := fun c hc p hp => by
    rcases hcs c hc p hp with e | e
    · rw [e]; exact hn
    · exact (hk _ e).2
  obtain ⟨new, e, hnew⟩ := addClauses_spec (flip := flip) cs P fun c hc p hp => ⟨hhas c hc p hp, by
    obtain ⟨v, hv, hx⟩ := hhas c hc p hp; exact (h.mapped _ v hx hv).1⟩
  refine ⟨_, e, ?_, rfl⟩
  have hsub : ∀ a, Satisfies a (P.clauses ++ new) → Satisfies a P.clauses := fun a ha => ((satisfies_append a _ _).1 ha).1
  refine ⟨h.len, h.zero, h.mapped, h.inj, h.used, h.pos, h.count, ?_, ?_⟩
  · intro w hw a ha
    refine (satisfies_append a _ _).2 ⟨h.sound w hw a ha, ?_⟩
    exact (hnew a w fun c hc p hp => ha _ (hhas c hc p hp)).2 ((hiff w).2 (hm w hw))
  · intro x hx
    rcases h.enc x hx with h1 | h1 | h1
    · rcases List.mem_cons.1 h1 with rfl | h1
      · right; right
        refine ⟨ks, hk, fun a ha w hw hag => ?_⟩
        obtain ⟨v, hv, hxv⟩ := hn
        -- the valuation that agrees at `x` as well
        let w' : Nat → Bool := fun y => if y = x then Bool.xor (a v) (flip && F.phaseOf x) else w y
        have hw' : ∀ k ∈ ks, w' k = w k := fun k hk' => if_neg (Nat.ne_of_lt (hk k hk').1)
        have hag' : ∀ y, y = x ∨ y ∈ ks → Agrees flip F P.vars a w' y := by
          rintro y (rfl | hy)
          · intro u hu
            rw [hxv] at hu; obtain rfl := Option.some.inj hu
            simp only [pol, w', if_pos rfl]
            cases a v <;> cases (flip && F.phaseOf y) <;> rfl
          · intro u hu
            rw [hag y hy u hu, pol, pol, hw' y hy]
        have h2 := (hiff w').1 ((hnew a w' fun c hc p hp => hag' _ (hcs c hc p hp)).1 ((satisfies_append a _ _).1 ha).2)
        rw [hf w' w hw', ← hm w hw] at h2
        intro u hu
        rw [hag' x (.inl rfl) u hu, pol, pol, h2]
      · exact .inl h1
    · exact .inr (.inl h1)
    · exact .inr (.inr (h1.grow (P := P) (P' := { P with clauses := P.clauses ++ new }) ⟨rfl, fun _ _ _ h => h⟩ hsub hx))

/-! ### multiplexers and conjunctions -/

theorem muxSelect_index {a b c d i t e : Sig} (h : Aig.muxSelect a b c d = some (i, t, e)) :
    ∀ x ∈ [i.index, t.index, e.index], x ∈ [a.index, b.index, c.index, d.index] := by
  have key : ∀ {x x' y y' : Sig}, some (Aig.muxBranch x x' y y') = some (i, t, e) → (∀ z ∈ [x.index, x'.index, y.index, y'.index],
      z ∈ [a.index, b.index, c.index, d.index]) → ∀ z ∈ [i.index, t.index, e.index], z ∈ [a.index, b.index, c.index, d.index] := by
    intro x x' y y' h hz z hm
    rw [Aig.muxBranch] at h
    refine hz z ?_
    split at h
    · obtain ⟨rfl, rfl, rfl⟩ : y = i ∧ y'.not = t ∧ x'.not = e := by simpa using h
      simp only [List.mem_cons, List.not_mem_nil, or_false, Sig.not] at hm ⊢
      tauto
    · obtain ⟨rfl, rfl, rfl⟩ : x = i ∧ x'.not = t ∧ y'.not = e := by simpa using h
      simp only [List.mem_cons, List.not_mem_nil, or_false, Sig.not] at hm ⊢
      tauto
  rw [Aig.muxSelect] at h
  split at h
  · exact key h (by simp only [List.mem_cons, List.not_mem_nil, or_false]; tauto)
  · split at h
    · exact key h (by simp only [List.mem_cons, List.not_mem_nil, or_false]; tauto)
    · split at h
      · exact key h (by simp only [List.mem_cons, List.not_mem_nil, or_false]; tauto)
      · split at h
        · exact key h (by simp only [List.mem_cons, List.not_mem_nil, or_false]; tauto)
        · cases h

theorem mem_pushUnique {l : List Sig} {s x : Sig} : x ∈ pushUnique l s ↔ x ∈ l ∨ x = s := by
  unfold pushUnique
  split
  · next h => exact ⟨.inl, fun h' => h'.elim id (fun e => e ▸ h)⟩
  · simp

theorem muxClauses_iff (n : Nat) (i t e : Sig) (hi : i.compl = false) (same : Bool) (w : Nat → Bool) :
    (∀ c ∈ muxClauses n i t e same, ∃ p ∈ c, w p.1 = !p.2) ↔ w n = if w i.index then t.val w else e.val w := by
  have _ := hi
  cases same <;> simp only [muxClauses, List.mem_cons, List.not_mem_nil, or_false, forall_eq_or_imp, forall_eq,
    exists_eq_or_imp, exists_eq_left, Bool.false_eq_true, if_false, if_true, List.append_nil, List.cons_append, List.nil_append, Sig.val] <;>
  generalize w n = x1 <;> generalize w i.index = x2 <;> generalize w t.index = x3 <;> generalize w e.index = x4 <;>
  generalize t.compl = x5 <;> generalize e.compl = x6 <;> revert x1 x2 x3 x4 x5 x6 <;> decide

theorem superClauses_iff (n : Nat) (fs : List Sig) (w : Nat → Bool) :
    (∀ c ∈ superClauses n fs, ∃ p ∈ c, w p.1 = !p.2) ↔ w n = fs.all fun s => s.val w := by
  have h1 : (∀ c ∈ superClauses n fs, ∃ p ∈ c, w p.1 = !p.2) ↔
      (∀ s ∈ fs, s.val w = true ∨ w n = false) ∧ ((∃ s ∈ fs, s.val w = false) ∨ w n = true) := by
    unfold superClauses
    simp only [List.mem_append, List.mem_singleton, List.mem_map]
    constructor
    · intro h
      refine ⟨fun s hs => ?_, ?_⟩
      · obtain ⟨p, hp, he⟩ := h [(s.index, s.compl), (n, true)] (.inl ⟨s, hs, rfl⟩)
        simp only [List.mem_cons, List.not_mem_nil, or_false] at hp
        rcases hp with rfl | rfl
        · left; simp only at he; simp [Sig.val, he]
        · right; simpa using he
      · obtain ⟨p, hp, he⟩ := h _ (.inr rfl)
        simp only [List.mem_append, List.mem_map, List.mem_singleton] at hp
        rcases hp with ⟨s, hs, rfl⟩ | rfl
        · left; exact ⟨s, hs, by simp only at he; simp [Sig.val, he]⟩
        · right; simpa using he
    · rintro ⟨h1, h2⟩ c (⟨s, hs, rfl⟩ | rfl)
      · rcases h1 s hs with h | h
        · refine ⟨(s.index, s.compl), by simp, ?_⟩
          simp only [Sig.val] at h ⊢
          revert h; cases w s.index <;> cases s.compl <;> simp
        · exact ⟨(n, true), by simp, by simpa using h⟩
      · rcases h2 with ⟨s, hs, h⟩ | h
        · refine ⟨(s.index, !s.compl), by simp only [List.mem_append, List.mem_map]; exact .inl ⟨s, hs, rfl⟩, ?_⟩
          simp only [Sig.val] at h ⊢
          revert h; cases w s.index <;> cases s.compl <;> simp
        · exact ⟨(n, false), by simp, by simpa using h⟩
  rw [h1]
  cases hn : w n
  · simp
  · simp only [Bool.true_eq_false, or_false, or_true, and_true]
    rw [eq_comm, List.all_eq_true]

theorem pushUnique_all (l : List Sig) (s : Sig) (w : Nat → Bool) :
    (pushUnique l s).all (fun x => x.val w) = (l.all (fun x => x.val w) && s.val w) := by
  unfold pushUnique
  split
  · next h =>
    cases hl : l.all (fun x => x.val w)
    · rfl
    · rw [List.all_eq_true.1 hl s h]; rfl
  · simp

/-- the fanins collected below a signal: their conjunction is the signal -/
theorem collectSuper_spec {F : Aig} (hF : WF F) : ∀ (fuel : Nat) (s : Sig) (first : Bool) (fs : List Sig), F.Valid s → s.index < fuel →
    ∃ l, collectSuper F fuel s first fs = some l ∧ (∀ x ∈ l, x ∈ fs ∨ x.index ≤ s.index) ∧
      ∀ w, F.Models w → (l.all fun x => x.val w) = ((fs.all fun x => x.val w) && s.val w)
  | 0, s, _, _, _, hf => by omega
  | fuel + 1, s, first, fs, hs, hf => by
      rw [collectSuper, if_neg (by unfold Aig.Valid at hs; omega)]
      have hpush : ∀ x ∈ pushUnique fs s, x ∈ fs ∨ x.index ≤ s.index := fun x hx =>
        (mem_pushUnique.1 hx).imp_right fun e => by rw [e]
      by_cases hstop : superStop F s first = true
      · rw [if_pos hstop]
        exact ⟨_, rfl, hpush, fun w _ => pushUnique_all fs s w⟩
      · rw [if_neg hstop]
        obtain ⟨r, hr, -⟩ := Aig.isMux_iff hF hs
        rw [hr]
        cases r with
        | true => exact ⟨_, rfl, hpush, fun w _ => pushUnique_all fs s w⟩
        | false =>
            dsimp only
            simp only [superStop, Bool.or_eq_true, not_or] at hstop
            obtain ⟨⟨hc, hci⟩, -⟩ := hstop
            have h0 : s.index ≠ 0 := by
              intro h0
              apply hci
              have hp := hF.pos
              have := (hF.node0 _ (List.getElem?_eq_getElem hp)).1
              simp [Aig.isCi, h0, List.getElem?_eq_getElem hp, this]
            rcases hF.and_iff hs with ⟨_, a, b, g, hk⟩ | ⟨ha, -⟩
            · rw [hk]; dsimp only
              obtain ⟨l1, l2, l3, l4⟩ := hF.isGate_lt g
              obtain ⟨x, ex, hx1, hx2⟩ := collectSuper_spec hF fuel a false fs (show a.index < _ by omega) (by omega)
              obtain ⟨y, ey, hy1, hy2⟩ := collectSuper_spec hF fuel b false x (show b.index < _ by omega) (by omega)
              rw [ex]
              refine ⟨y, ey, fun z hz => ?_, fun w hw => ?_⟩
              · rcases hy1 z hz with h | h
                · rcases hx1 z h with h | h
                  · exact .inl h
                  · right; omega
                · right; omega
              · rw [hy2 w hw, hx2 w hw, Bool.and_assoc]
                congr 1
                have hcf : s.compl = false := by simpa using hc
                rw [show s.val w = w s.index by rw [Sig.val, hcf]; simp, hw.gate _ _ _ g]
            · simp only [Aig.isAnd, Bool.and_eq_false_iff, decide_eq_false_iff_not, Bool.not_eq_false'] at ha
              rcases ha with ha | ha
              · omega
              · exact absurd ha hci

theorem encode_spec {flip : Bool} {F : Aig} (hF : WF F) {n : Nat} {a b : Sig} (g : F.IsGate n a b) {P : Prover} {todo : List Nat}
    (h : Ok flip F P (n :: todo)) (hn : Has P.vars n) (hg : ∀ m ∈ todo, ∃ a b, F.IsGate m a b) (hh : ∀ m ∈ todo, Has P.vars m) :
    ∃ P' todo', encode flip F n (P, todo) = some (P', todo') ∧ Ok flip F P' todo' ∧ (∀ m ∈ todo', ∃ a b, F.IsGate m a b) ∧
      (∀ m ∈ todo', Has P'.vars m) ∧ Grows P P' ∧
      todo'.length + P'.vars.count 0 ≤ todo.length + P.vars.count 0 := by
  obtain ⟨l1, l2, l3, l4⟩ := hF.isGate_lt g
  obtain ⟨r, hr, hri⟩ := Aig.isMux_iff hF l4
  rw [encode, hr]
  cases r with
  | true =>
      dsimp only
      obtain ⟨i, t, e, hrec, hic, vi, vt, ve, hval⟩ := Aig.mux_spec hF (hri.1 rfl)
      obtain ⟨p, q, a0, a1, b0, b1, g', gp, gq, -⟩ := hri.1 rfl
      have lp := hF.isGate_lt gp
      have lq := hF.isGate_lt gq
      have ln := hF.isGate_lt g'
      simp only at ln
      have hmf : muxFanins F n = some (pushUnique (pushUnique (pushUnique (pushUnique [] ⟨a0.index, false⟩) ⟨b0.index, false⟩) ⟨a1.index, false⟩)
          ⟨b1.index, false⟩) := by
        rw [muxFanins, g'.kids]; dsimp only; rw [gp.kids, gq.kids]
      rw [hmf]; dsimp only
      have hmem : ∀ x ∈ pushUnique (pushUnique (pushUnique (pushUnique [] ⟨a0.index, false⟩) ⟨b0.index, false⟩) ⟨a1.index, false⟩)
          ⟨b1.index, false⟩, x.index < F.nodes.length := by
        intro x hx
        simp only [mem_pushUnique, List.not_mem_nil, false_or] at hx
        rcases hx with ((rfl | rfl) | rfl) | rfl <;> simp only <;> omega
      obtain ⟨P1, t1, e1, h1, g1, hh1, r1, k1, m1⟩ := addFanins_spec hF _ P [n] todo hmem h hg hh
      rw [e1]; dsimp only
      have hsel : Aig.muxSelect a0 a1 b0 b1 = some (i, t, e) := by
        rw [Aig.recognizeMux, g'.kids] at hrec; dsimp only at hrec; rw [gp.kids, gq.kids] at hrec; exact hrec
      have hk : ∀ k ∈ [i.index, t.index, e.index], k < n ∧ Has P1.vars k := by
        intro k hk
        have := muxSelect_index hsel k hk
        simp only [List.mem_cons, List.not_mem_nil, or_false] at this
        rcases this with rfl | rfl | rfl | rfl
        · exact ⟨by omega, k1 ⟨a0.index, false⟩ (by simp [mem_pushUnique])⟩
        · exact ⟨by omega, k1 ⟨a1.index, false⟩ (by simp [mem_pushUnique])⟩
        · exact ⟨by omega, k1 ⟨b0.index, false⟩ (by simp [mem_pushUnique])⟩
        · exact ⟨by omega, k1 ⟨b1.index, false⟩ (by simp [mem_pushUnique])⟩
      rw [addMux, hrec]; dsimp only
      obtain ⟨ut, _, hut⟩ := (hk t.index (by simp)).2
      obtain ⟨ue, _, hue⟩ := (hk e.index (by simp)).2
      rw [hut, hue]; dsimp only
      obtain ⟨P2, e2, h2, hv2⟩ := addClauses_ok (flip := flip) h1 (r1.has hn) hk (cs := muxClauses n i t e (ut == ue)) (by
          intro c hc p hp
          simp only [muxClauses, List.mem_append, List.mem_cons, List.not_mem_nil, or_false] at hc
          have hc' : c ∈ muxClauses n i t e false := by
            simp only [muxClauses, List.mem_append, List.mem_cons, List.not_mem_nil, or_false, Bool.false_eq_true, if_false]
            rcases hc with hc | hc
            · exact .inl hc
            · right
              split at hc
              · simp at hc
              · simpa using hc
          simp only [muxClauses, List.mem_append, List.mem_cons, List.not_mem_nil, or_false, Bool.false_eq_true, if_false] at hc'
          rcases hc' with (rfl | rfl | rfl | rfl) | (rfl | rfl) <;>
            simp only [List.mem_cons, List.not_mem_nil, or_false] at hp <;> rcases hp with rfl | rfl | rfl <;> simp)
        (fun w => if w i.index then t.val w else e.val w) (by
          intro w w' hw
          simp only [Sig.val]
          rw [hw i.index (by simp), hw t.index (by simp), hw e.index (by simp)])
        (fun w => muxClauses_iff n i t e hic _ w) (by
          intro w hw
          rw [hval w hw]
          simp [Sig.val, hic])
      rw [e2]
      refine ⟨P2, t1, rfl, h2, g1, by rw [hv2]; exact hh1, ?_, by rw [hv2]; exact m1⟩
      exact ⟨by rw [hv2]; exact r1.1, fun x v hv hx => by rw [hv2]; exact r1.2 x v hv hx⟩
  | false =>
      dsimp only
      have hstop : superStop F ⟨n, false⟩ true = false := by simp [superStop, g.not_ci hF]
      obtain ⟨x, ex, hx1, hx2⟩ := collectSuper_spec hF n a false [] (show a.index < _ by omega) (by omega)
      obtain ⟨fs, ey, hy1, hy2⟩ := collectSuper_spec hF n b false x (show b.index < _ by omega) (by omega)
      have hfs : ∀ s ∈ fs, s.index < n := by
        intro s hs
        rcases hy1 s hs with h | h
        · rcases hx1 s h with h | h
          · simp at h
          · omega
        · omega
      have hcol : collectSuper F (n + 1) ⟨n, false⟩ true [] = some fs := by
        rw [collectSuper]
        simp only
        rw [if_neg (by omega), hstop, if_neg (by simp), hr]; dsimp only
        rw [g.kids]; dsimp only
        rw [ex]; exact ey
      rw [hcol]; dsimp only
      obtain ⟨P1, t1, e1, h1, g1, hh1, r1, k1, m1⟩ := addFanins_spec hF fs P [n] todo (fun s hs => by have := hfs s hs; omega) h hg hh
      rw [e1]; dsimp only
      obtain ⟨P2, e2, h2, hv2⟩ := addClauses_ok (flip := flip) h1 (r1.has hn) (ks := fs.map (·.index)) (by
          intro k hk
          obtain ⟨s, hs, rfl⟩ := List.mem_map.1 hk
          exact ⟨hfs s hs, k1 s hs⟩) (cs := superClauses n fs) (by
          intro c hc p hp
          simp only [superClauses, List.mem_append, List.mem_map, List.mem_singleton] at hc
          rcases hc with ⟨s, hs, rfl⟩ | rfl
          · simp only [List.mem_cons, List.not_mem_nil, or_false] at hp
            rcases hp with rfl | rfl
            · exact .inr (List.mem_map.2 ⟨s, hs, rfl⟩)
            · exact .inl rfl
          · simp only [List.mem_append, List.mem_map, List.mem_singleton] at hp
            rcases hp with ⟨s, hs, rfl⟩ | rfl
            · exact .inr (List.mem_map.2 ⟨s, hs, rfl⟩)
            · exact .inl rfl)
        (fun w => fs.all fun s => s.val w) (by
          intro w w' hw
          rw [Bool.eq_iff_iff, List.all_eq_true, List.all_eq_true]
          have : ∀ s ∈ fs, s.val w = s.val w' := fun s hs => by rw [Sig.val, Sig.val, hw s.index (List.mem_map.2 ⟨s, hs, rfl⟩)]
          exact ⟨fun h s hs => (this s hs) ▸ h s hs, fun h s hs => (this s hs).symm ▸ h s hs⟩)
        (fun w => superClauses_iff n fs w) (by
          intro w hw
          rw [hy2 w hw, hx2 w hw, hw.gate _ _ _ g]; rfl)
      rw [e2]
      refine ⟨P2, t1, rfl, h2, g1, by rw [hv2]; exact hh1, ?_, by rw [hv2]; exact m1⟩
      exact ⟨by rw [hv2]; exact r1.1, fun x v hv hx => by rw [hv2]; exact r1.2 x v hv hx⟩

theorem cnfLoop_spec {flip : Bool} {F : Aig} (hF : WF F) : ∀ (fuel : Nat) (P : Prover) (todo : List Nat), Ok flip F P todo →
    (∀ m ∈ todo, ∃ a b, F.IsGate m a b) → (∀ m ∈ todo, Has P.vars m) → todo.length + P.vars.count 0 ≤ fuel →
    ∃ P', cnfLoop flip F fuel (P, todo) = some P' ∧ Ok flip F P' [] ∧ Grows P P'
  | fuel, P, [], h, _, _, _ => ⟨P, by rw [cnfLoop], h, .refl P⟩
  | 0, P, n :: todo, _, _, _, hf => by simp at hf
  | fuel + 1, P, n :: todo, h, hg, hh, hf => by
      obtain ⟨a, b, g⟩ := hg n List.mem_cons_self
      obtain ⟨P1, t1, e1, h1, g1, hh1, r1, m1⟩ := encode_spec hF g h (hh n List.mem_cons_self) (fun m hm => hg m (List.mem_cons_of_mem _ hm))
        (fun m hm => hh m (List.mem_cons_of_mem _ hm))
      simp only [List.length_cons] at hf
      obtain ⟨P2, e2, h2, r2⟩ := cnfLoop_spec hF fuel P1 t1 h1 g1 hh1 (by omega)
      exact ⟨P2, by rw [cnfLoop, e1]; exact e2, h2, r1.trans r2⟩

theorem cnfAdd_spec {flip : Bool} {F : Aig} (hF : WF F) {n : Nat} (hn : n < F.nodes.length) {P : Prover} (h : Ok flip F P []) :
    ∃ P', cnfAdd flip F n P = some P' ∧ Ok flip F P' [] ∧ Grows P P' ∧ Has P'.vars n := by
  have hl := h.len
  have hnv : P.vars[n]? = some P.vars[n] := List.getElem?_eq_getElem (by omega)
  generalize P.vars[n] = v at hnv
  rw [cnfAdd, hnv]; dsimp only
  by_cases hv : v ≠ 0
  · rw [if_pos hv]
    exact ⟨P, rfl, h, .refl P, v, hv, hnv⟩
  · rw [if_neg hv]
    obtain ⟨P1, t1, e1, h1, g1, hh1, r1, k1, m1⟩ := addFrontier_spec (cur := []) hF hn h (by simp) (by simp)
    rw [e1]
    have hc : P.vars.count 0 ≤ P.vars.length := List.count_le_length
    obtain ⟨P2, e2, h2, r2⟩ := cnfLoop_spec hF P.vars.length P1 t1 h1 g1 hh1 (by simp at m1; omega)
    exact ⟨P2, e2, h2, r1.trans r2, r2.has k1⟩

/-- the solver's answer `unsat` is right -/
def Sound (solve : Nat → List (List Nat) → List Nat → Answer) : Prop :=
  ∀ k cs as, solve k cs as = .unsat → ∀ a, Satisfies a cs → ¬ ∀ l ∈ as, LitTrue a l

/-- the solver's models satisfy the clauses and the assumptions -/
def Right (solve : Nat → List (List Nat) → List Nat → Answer) : Prop :=
  ∀ k cs as a, solve k cs as = .sat a → Satisfies a cs ∧ ∀ l ∈ as, LitTrue a l

theorem satVars_le {flip : Bool} {F : Aig} {P : Prover} {todo : List Nat} (h : Ok flip F P todo) {n v : Nat} (hn : P.vars[n]? = some v)
    (hv : v ≠ 0) : v ≤ P.vars.length := by
  have h1 := (h.mapped n v hn hv).2
  have h2 := h.count
  omega

theorem attempt_spec {flip : Bool} {F : Aig} {solve : Nat → List (List Nat) → List Nat → Answer} (hs : Sound solve) (k : Nat) {P : Prover}
    (h : Ok flip F P []) {r n : Nat} (hr : Has P.vars r) (hn : Has P.vars n) (cr cn : Bool) :
    (∃ P' ans, attempt flip F solve k P r cr n cn = some (P', ans) ∧ Ok flip F P' [] ∧ P'.vars = P.vars ∧
      (ans = .unsat → ∀ w, F.Models w → ¬ (w r = !cr ∧ w n = !cn)) ∧
      (Right solve → ∀ a, ans = .sat a → Satisfies a P'.clauses ∧
        ∀ w, Agrees flip F P.vars a w r → Agrees flip F P.vars a w n → w r = !cr ∧ w n = !cn)) ∨
    (attempt flip F solve k P r cr n cn = none ∧ 1000 ≤ P.vars.length) := by
  have hlt : ∀ {x}, Has P.vars x → x < F.nodes.length := fun ⟨v, hv, hx⟩ => (h.mapped _ v hx hv).1
  obtain ⟨as, e, has⟩ := lits_spec (flip := flip) (F := F) (m := P.vars) (c := [(r, cr), (n, cn)]) (by
    intro p hp
    simp only [List.mem_cons, List.not_mem_nil, or_false] at hp
    rcases hp with rfl | rfl
    · exact ⟨hr, hlt hr⟩
    · exact ⟨hn, hlt hn⟩)
  have hall : ∀ a w, Agrees flip F P.vars a w r → Agrees flip F P.vars a w n → ((∀ l ∈ as, LitTrue a l) ↔ (w r = !cr ∧ w n = !cn)) := by
    intro a w h1 h2
    rw [forall₂_all has (by
      intro p hp
      simp only [List.mem_cons, List.not_mem_nil, or_false] at hp
      rcases hp with rfl | rfl
      · exact h1
      · exact h2)]
    simp
  rw [attempt, e]; dsimp only
  cases hk : P.ask solve k as with
  | none =>
      right
      refine ⟨rfl, ?_⟩
      rw [ask] at hk
      split at hk
      · cases hk
      · next hx =>
        by_contra hlen
        apply hx
        rw [List.all_eq_true]
        intro l hl
        have : l / 2 ≤ P.vars.length := by
          cases has with
          | cons s1 t =>
            cases t with
            | cons s2 t =>
              cases t
              obtain ⟨v1, hv1, e1⟩ := hr
              obtain ⟨v2, hv2, e2⟩ := hn
              have q1 := s1.1; have q2 := s2.1
              simp only at q1 q2
              rw [e1] at q1; rw [e2] at q2
              simp only [List.mem_cons, List.not_mem_nil, or_false] at hl
              rcases hl with rfl | rfl
              · rw [← Option.some.inj q1]; exact satVars_le h e1 hv1
              · rw [← Option.some.inj q2]; exact satVars_le h e2 hv2
        have hkn : 1000 ≤ P.known := Nat.le_max_left _ _
        exact decide_eq_true (by omega)
  | some ans =>
      left
      have hans : solve k P.clauses as = ans := by
        rw [ask] at hk
        split at hk
        · exact Option.some.inj hk
        · cases hk
      cases ans with
      | unsat =>
          have hno := hs k P.clauses as hans
          refine ⟨_, _, rfl, ?_, rfl, ?_, by intro _ a ha; cases ha⟩
          · refine ⟨h.len, h.zero, h.mapped, h.inj, h.used, h.pos, h.count, ?_, ?_⟩
            · intro w hw a ha
              have hsat := h.sound w hw a ha
              refine (satisfies_append a _ _).2 ⟨hsat, ?_⟩
              have hq := hno a hsat
              simp only [not_forall] at hq
              obtain ⟨l, hl, hnl⟩ := hq
              simp only [Satisfies, List.mem_singleton, forall_eq, List.mem_map]
              exact ⟨litNot l, ⟨l, hl, rfl⟩, (litTrue_not a l).2 hnl⟩
            · intro x hx
              exact (h.enc x hx).imp_right (Or.imp_right fun hq => hq.grow (P := P) (P' := { P with clauses := P.clauses ++ [as.map litNot] })
                ⟨rfl, fun _ _ _ h => h⟩ (fun a ha => ((satisfies_append a _ _).1 ha).1) hx)
          · intro _ w hw hc
            obtain ⟨a, ha⟩ := h.assignment w
            exact hno a (h.sound w hw a ha) ((hall a w (ha r hr) (ha n hn)).2 hc)
      | timeout => exact ⟨_, _, rfl, h, rfl, (by intro h; cases h), by intro _ a ha; cases ha⟩
      | sat a =>
          refine ⟨_, _, rfl, h, rfl, (by intro h; cases h), ?_⟩
          intro hR b hb
          obtain rfl : a = b := by injection hb
          obtain ⟨h1, h2⟩ := hR k P.clauses as a hans
          exact ⟨h1, fun w w1 w2 => (hall a w w1 w2).1 h2⟩

/-- the outcome of `satProve` -/
structure ProveSpec (pp : SatParams) (F : Aig) (solve : Nat → List (List Nat) → List Nat → Answer) (P P' : Prover) (r n : Nat) (ans : Answer) : Prop where
  ok : Ok pp.polarFlip F P' []
  len : P'.vars.length = P.vars.length
  unsat : ans = .unsat → ∀ w, F.Models w → Bool.xor (w r) (F.phaseOf r) = Bool.xor (w n) (F.phaseOf n)
  sat : Right solve → ∀ a, ans = .sat a → ∀ w, F.Models w → (∀ i ∈ F.inputs, Has P'.vars i → Agrees pp.polarFlip F P'.vars a w i) →
    Bool.xor (w r) (F.phaseOf r) ≠ Bool.xor (w n) (F.phaseOf n)

theorem satProve_spec {pp : SatParams} {F : Aig} (hF : Built F) {solve : Nat → List (List Nat) → List Nat → Answer} (hs : Sound solve) (k : Nat)
    {P : Prover} (h : Ok pp.polarFlip F P []) {r n : Nat} (hr : r < F.nodes.length) (hn : n < F.nodes.length) :
    (∃ P' k' ans, satProve pp F solve k P r n = some (P', k', ans) ∧ ProveSpec pp F solve P P' r n ans) ∨
    (satProve pp F solve k P r n = none ∧ 1000 ≤ P.vars.length) := by
  obtain ⟨h0, l0⟩ := begin_spec hF h pp
  obtain ⟨P1, e1, h1, r1, k1⟩ := cnfAdd_spec hF.wf hr h0
  obtain ⟨P2, e2, h2, r2, k2⟩ := cnfAdd_spec hF.wf hn h1
  have k1' := r2.has k1
  have hl2 : P2.vars.length = P.vars.length := by rw [r2.1, r1.1, l0]
  rw [satProve, e1]; dsimp only
  rw [e2]; dsimp only
  generalize hcn : Bool.xor (F.phaseOf r) (F.phaseOf n) = cn
  rcases attempt_spec hs k h2 k1' k2 true cn with ⟨P3, ans, e3, h3, v3, u3, s3⟩ | ⟨e3, hb⟩
  · rw [e3]
    have hl3 : P3.vars.length = P.vars.length := by rw [v3, hl2]
    have hdiff : ∀ {c d : Bool} {w : Nat → Bool}, d = Bool.xor (!c) cn → w r = !c ∧ w n = !d →
        Bool.xor (w r) (F.phaseOf r) ≠ Bool.xor (w n) (F.phaseOf n) := by
      intro c d w hd ⟨q1, q2⟩
      rw [q1, q2, hd, ← hcn]
      cases c <;> cases F.phaseOf r <;> cases F.phaseOf n <;> decide
    cases ans with
    | timeout => exact .inl ⟨_, _, _, rfl, h3, hl3, (by intro h; cases h), by intro _ a h; cases h⟩
    | sat a =>
        refine .inl ⟨_, _, _, rfl, h3, hl3, (by intro h; cases h), ?_⟩
        intro hR b hb w hw hi
        obtain rfl : a = b := by injection hb
        obtain ⟨q1, q2⟩ := s3 hR a rfl
        have hag := h3.complete q1 hw hi
        rw [v3] at hag
        exact hdiff (c := true) (d := cn) (by cases cn <;> rfl) (q2 w (hag r k1') (hag n k2))
    | unsat =>
        dsimp only
        by_cases h00 : r = 0
        · rw [if_pos h00]
          refine .inl ⟨_, _, _, rfl, h3, hl3, ?_, by intro _ a h; cases h⟩
          intro _ w hw
          have := u3 rfl w hw
          rw [h00, hw.const] at this ⊢
          rw [h00] at hcn
          rw [← hcn] at this
          revert this
          cases w n <;> cases F.phaseOf 0 <;> cases F.phaseOf n <;> decide
        · rw [if_neg h00]
          rcases attempt_spec hs (k + 1) h3 (by rw [v3]; exact k1') (by rw [v3]; exact k2) false (F.phaseOf r == F.phaseOf n) with
            ⟨P4, ans, e4, h4, v4, u4, s4⟩ | ⟨e4, hb⟩
          · rw [e4]
            refine .inl ⟨_, _, _, rfl, h4, by rw [v4, hl3], ?_, ?_⟩
            · intro ha w hw
              have q1 := u3 rfl w hw
              have q2 := u4 ha w hw
              rw [← hcn] at q1
              revert q1 q2
              cases w r <;> cases w n <;> cases F.phaseOf r <;> cases F.phaseOf n <;> decide
            · intro hR a ha w hw hi
              obtain ⟨q1, q2⟩ := s4 hR a ha
              have hag := h4.complete q1 hw hi
              rw [v4] at hag
              refine hdiff (c := false) (d := F.phaseOf r == F.phaseOf n) ?_ (q2 w (hag r (by rw [v3]; exact k1')) (hag n (by rw [v3]; exact k2)))
              rw [← hcn]
              cases F.phaseOf r <;> cases F.phaseOf n <;> rfl
          · rw [e4]
            exact .inr ⟨rfl, by rw [← hl3]; exact hb⟩
  · rw [e3]
    exact .inr ⟨rfl, by rw [← hl2]; exact hb⟩

end Verif.Choice.Prover
