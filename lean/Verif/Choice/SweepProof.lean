import Verif.Choice.ResimProof
import Verif.Props.C62
import Verif.Aig.Phased

set_option autoImplicit false

/-!
# SAT sweeping
-/

namespace Verif.Choice
open Aig (WF Ext Built)
open Cnf (Answer)
open Prover (Right Has Agrees satProve_spec)

/-- the inputs have the same values in the same order -/
def Paired (N F : Aig) (v w : Nat → Bool) : Prop := ∀ k i j : Nat, N.inputs[k]? = some i → F.inputs[k]? = some j → v i = w j

theorem paired_exists (N : Aig) {F : Aig} (hF : WF F) (v : Nat → Bool) : ∃ w, F.Models w ∧ Paired N F v w := by
  have h := hF.consistent_value fun k => match N.inputs[k]? with
    | some i => v i
    | none => false
  refine ⟨_, h.models, fun k i j hi hj => ?_⟩
  rw [h.input k j hj, hi]

/-- a node and the signal that replaces it have the same value -/
def SameVal (N F : Aig) (x : Nat) (s : Sig) : Prop := ∀ v w, N.Models v → F.Models w → Paired N F v w → s.val w = v x

theorem SameVal.phase {N F : Aig} (hN : N.Phased) (hF : Built F) (hl : F.inputs.length = N.inputs.length) {x : Nat} {s : Sig}
    (hx : x < N.nodes.length) (hs : F.Valid s) (h : SameVal N F x s) : N.phaseOf x = Bool.xor s.compl (F.phaseOf s.index) := by
  obtain ⟨z, hz, hz0⟩ := models_inputs hN.wf (fun _ => false)
  obtain ⟨w, hw, hp⟩ := paired_exists N hF.wf z
  have hw0 : ∀ i ∈ F.inputs, w i = false := by
    intro j hj
    obtain ⟨k, hk⟩ := List.getElem?_of_mem hj
    have hkl := (List.getElem?_eq_some_iff.1 hk).1
    have hik : N.inputs[k]? = some N.inputs[k] := List.getElem?_eq_getElem (by omega)
    rw [← hp k _ j hik hk, hz0 _ (List.mem_of_getElem? hik)]
  rw [hN.zero z hz hz0 x hx, models_zero hF hw hw0 s.index hs, ← h z w hz hw hp]
  rfl

/-- with the phases taken out, the values agree without the complementation -/
theorem SameVal.norm {N F : Aig} (hN : N.Phased) (hF : Built F) (hl : F.inputs.length = N.inputs.length) {x : Nat} {s : Sig}
    (hx : x < N.nodes.length) (hs : F.Valid s) (h : SameVal N F x s) {v w : Nat → Bool} (hv : N.Models v) (hw : F.Models w)
    (hp : Paired N F v w) : Bool.xor (v x) (N.phaseOf x) = Bool.xor (w s.index) (F.phaseOf s.index) := by
  rw [h.phase hN hF hl hx hs, ← h v w hv hw hp, Sig.val]
  cases s.compl <;> cases w s.index <;> cases F.phaseOf s.index <;> rfl

/-- invariant of `man_sweep`; `k` gates are left -/
structure Swept (N : Aig) (E : Env) (S : Sweep) (k : Nat) : Prop where
  built : S.net.Built
  inputs : S.net.inputs.length = N.inputs.length
  small : S.net.nodes.length + k ≤ N.nodes.length
  mlen : S.map.length = N.nodes.length
  mapped : ∀ (x : Nat) (s : Sig), S.map[x]? = some (some s) → S.net.Valid s ∧ SameVal N S.net x s
  inmap : ∀ q i : Nat, N.inputs[q]? = some i → ∃ j, S.net.inputs[q]? = some j ∧ S.map[i]? = some (some ⟨j, false⟩)
  repr : ReprOk N S.repr
  cls : S.cls.Ok N.nodes.length
  prover : Prover.Ok E.sat.polarFlip S.net S.prover []
  plen : S.prover.vars.length = N.nodes.length
  marks : S.marks.length = N.nodes.length
  mark0 : S.marks[0]? = some false

theorem ReprOk.set {N : Aig} {repr : List Nat} (h : ReprOk N repr) {n r : Nat} (hle : r ≤ n)
    (hs : ∀ v, N.Models v → Bool.xor (v n) (N.phaseOf n) = Bool.xor (v r) (N.phaseOf r)) : ReprOk N (repr.set n r) := by
  refine ⟨by rw [List.length_set]; exact h.len, ?_, ?_⟩
  · intro m q hq
    rw [List.getElem?_set] at hq
    split at hq
    · next e =>
      subst e
      split at hq
      · rw [← Option.some.inj hq]; exact hle
      · cases hq
    · exact h.le m q hq
  · intro m q hq
    rw [List.getElem?_set] at hq
    split at hq
    · next e =>
      subst e
      split at hq
      · rw [← Option.some.inj hq]; exact hs
      · cases hq
    · exact h.same m q hq

/-- the values the solver gives to the inputs -/
theorem Swept.cex {N : Aig} (hN : N.Phased) {E : Env} {S : Sweep} {k : Nat} (h : Swept N E S k) {P : Prover}
    (hP : Prover.Ok E.sat.polarFlip S.net P []) (model : Nat → Bool) :
    ∃ v w, N.Models v ∧ S.net.Models w ∧ Paired N S.net v w ∧
      (∀ i ∈ N.inputs, ∃ s, S.map[i]? = some (some s) ∧ (P.varValue model s.index).getD false = v i) ∧
      (P.vars.length < 1000 → (∀ i ∈ S.net.inputs, Has P.vars i → Agrees E.sat.polarFlip S.net P.vars model w i)) := by
  obtain ⟨v, hv, hi⟩ := models_inputs hN.wf fun i => match S.map[i]? with
    | some (some s) => (P.varValue model s.index).getD false
    | _ => false
  obtain ⟨w, hw, hp⟩ := paired_exists N h.built.wf v
  refine ⟨v, w, hv, hw, hp, ?_, ?_⟩
  · intro i hm
    obtain ⟨q, hq⟩ := List.getElem?_of_mem hm
    obtain ⟨j, _, hj⟩ := h.inmap q i hq
    exact ⟨_, hj, by rw [hi i hm, hj]⟩
  · intro hlen j hm hh u hu
    obtain ⟨q, hq⟩ := List.getElem?_of_mem hm
    have hql := (List.getElem?_eq_some_iff.1 hq).1
    obtain ⟨i, hiq⟩ : ∃ i, N.inputs[q]? = some i := ⟨_, List.getElem?_eq_getElem (by rw [← h.inputs]; exact hql)⟩
    obtain ⟨j', hj', hmj⟩ := h.inmap q _ hiq
    rw [hq] at hj'
    obtain rfl := Option.some.inj hj'
    obtain ⟨x, hx, hxj⟩ := hh
    rw [hu] at hxj
    obtain rfl := Option.some.inj hxj
    have hph : S.net.phaseOf j = false := by
      obtain ⟨z, hz, hz0⟩ := models_inputs h.built.wf (fun _ => false)
      rw [models_zero h.built hz hz0 j (h.built.wf.inputs_lt hm).2, hz0 j hm]
    have hle := Prover.satVars_le hP hu hx
    have hk : 1000 ≤ P.known := Nat.le_max_left _ _
    rw [Prover.pol, hph, ← hp q _ j hiq hq, hi _ (List.mem_of_getElem? hiq), hmj]
    dsimp only
    rw [Prover.varValue, hu]
    dsimp only
    rw [if_neg hx, if_pos (by omega)]
    simp

theorem varValue_some {flip : Bool} {F : Aig} {P : Prover} (h : Prover.Ok flip F P []) (hlen : P.vars.length < 1000) (model : Nat → Bool)
    {n : Nat} (hn : n < F.nodes.length) : P.varValue model n ≠ none := by
  have hl := h.len
  rw [Prover.varValue, List.getElem?_eq_getElem (by omega)]
  dsimp only
  by_cases h0 : P.vars[n] = 0
  · rw [if_pos h0]; simp
  · have := Prover.satVars_le h (List.getElem?_eq_getElem (by omega)) h0
    have hk : 1000 ≤ P.known := Nat.le_max_left _ _
    rw [if_neg h0, if_pos (by omega)]; simp

/-- the two nodes have the same value up to their phases -/
def Equal (N : Aig) (a b : Nat) : Prop := ∀ v, N.Models v → Bool.xor (v a) (N.phaseOf a) = Bool.xor (v b) (N.phaseOf b)

/-- What becomes of the node `n` and its representative. -/
structure Fate (N : Aig) (E : Env) (S S' : Sweep) (n : Nat) : Prop where
  finer : ∀ a b : Nat, S'.cls.reprs[a]? = S'.cls.reprs[b]? → S.cls.reprs[a]? = S.cls.reprs[b]?
  repr : ∀ m : Nat, m ≠ n → S'.repr[m]? = S.repr[m]?
  map : ∀ m : Nat, m ≠ n → S'.map[m]? = S.map[m]?
  alone : S.cls.reprs[n]? = some n → S'.repr[n]? = S.repr[n]? ∧ S'.map[n]? = S.map[n]?
  decided : Right E.solve → (∀ k cs as, E.solve k cs as ≠ .timeout) → N.nodes.length < 1000 →
    ∀ (r : Nat) (u : Sig), S.cls.reprs[n]? = some r → r ≠ n → S.map[r]? = some (some u) →
      (∃ s, S'.map[n]? = some (some s)) ∧
      ((Equal N n r ∧ S'.repr[n]? = some r) ∨ (¬ Equal N n r ∧ S'.repr[n]? = S.repr[n]? ∧ S'.cls.reprs[n]? ≠ S'.cls.reprs[r]?))

theorem sweepNode_spec {N : Aig} (hN : N.Phased) {E : Env} (hs : Prover.Sound E.solve) {S : Sweep} {k : Nat} (h : Swept N E S k) {n : Nat}
    (hn : n < N.nodes.length) (hni : n ∉ N.inputs) {t : Sig} (ht : S.map[n]? = some (some t)) :
    (∃ S', sweepNode N E n t.index S = some S' ∧ Swept N E S' k ∧ Fate N E S S' n) ∨
    (sweepNode N E n t.index S = none ∧ 1000 ≤ N.nodes.length) := by
  obtain ⟨r, hr⟩ : ∃ r, S.cls.reprs[n]? = some r := ⟨_, List.getElem?_eq_getElem (by rw [h.cls.lenr]; exact hn)⟩
  obtain ⟨hrn, _⟩ := h.cls.repr hr
  obtain ⟨tv, tval⟩ := h.mapped n t ht
  have hnr : n < S.repr.length := by rw [h.repr.len]; exact hn
  have hnm : n < S.map.length := by rw [h.mlen]; exact hn
  rw [sweepNode, hr]
  dsimp only
  by_cases hrn' : r = n
  · rw [if_pos hrn']
    refine .inl ⟨S, rfl, h, fun a b e => e, fun _ _ => rfl, fun _ _ => rfl, fun _ => ⟨rfl, rfl⟩, ?_⟩
    intro _ _ _ r' u h1 h2
    rw [hr] at h1
    exact absurd ((Option.some.inj h1).symm.trans hrn') h2
  · rw [if_neg hrn']
    have hal : S.cls.reprs[n]? = some n → False := fun e => hrn' (Option.some.inj (hr.symm.trans e))
    obtain ⟨o, ho⟩ : ∃ o, S.map[r]? = some o := ⟨_, List.getElem?_eq_getElem (by rw [h.mlen]; omega)⟩
    rw [ho]
    cases o with
    | none =>
        refine .inl ⟨S, rfl, h, fun a b e => e, fun _ _ => rfl, fun _ _ => rfl, fun _ => ⟨rfl, rfl⟩, ?_⟩
        intro _ _ _ r' u h1 h2 h3
        rw [hr] at h1
        obtain rfl := Option.some.inj h1
        rw [ho] at h3; cases h3
    | some u =>
        dsimp only
        obtain ⟨uv, uval⟩ := h.mapped r u ho
        have norm : ∀ v, N.Models v → ∃ w, S.net.Models w ∧ Paired N S.net v w ∧
            Bool.xor (v n) (N.phaseOf n) = Bool.xor (w t.index) (S.net.phaseOf t.index) ∧
            Bool.xor (v r) (N.phaseOf r) = Bool.xor (w u.index) (S.net.phaseOf u.index) := by
          intro v hv
          obtain ⟨w, hw, hp⟩ := paired_exists N h.built.wf v
          exact ⟨w, hw, hp, tval.norm hN h.built h.inputs hn tv hv hw hp, uval.norm hN h.built h.inputs (by omega) uv hv hw hp⟩
        by_cases hut : u.index = t.index
        · rw [if_pos hut]
          have heq : Equal N n r := by
            intro v hv
            obtain ⟨w, _, _, h1, h2⟩ := norm v hv
            rw [h1, h2, hut]
          refine .inl ⟨_, rfl, { h with repr := h.repr.set hrn heq }, fun a b e => e, fun m hm => ?_, fun _ _ => rfl, fun e => (hal e).elim, ?_⟩
          · exact List.getElem?_set_ne fun e => hm e.symm
          · intro _ _ _ r' u' h1 h2 h3
            rw [hr] at h1
            obtain rfl := Option.some.inj h1
            exact ⟨⟨t, ht⟩, .inl ⟨heq, List.getElem?_set_self hnr⟩⟩
        · rw [if_neg hut]
          rcases satProve_spec h.built hs S.asks h.prover uv tv with ⟨P, q, ans, e, hP⟩ | ⟨e, hb⟩
          · rw [e]
            have hPl : P.vars.length = N.nodes.length := hP.len.trans h.plen
            have setmap : ∀ (o : Option Sig), (∀ s, o = some s → S.net.Valid s ∧ SameVal N S.net n s) → ∀ repr', ReprOk N repr' →
                Swept N E { S with prover := P, asks := q, map := S.map.set n o, repr := repr' } k := by
              intro o ho' repr' hrepr
              refine { h with mlen := by rw [List.length_set]; exact h.mlen, mapped := ?_, inmap := ?_, repr := hrepr, prover := hP.ok, plen := hPl }
              · intro x s hx
                simp only at hx ⊢
                rw [List.getElem?_set] at hx
                split at hx
                · next e =>
                  subst e
                  exact ho' s (Option.some.inj hx)
                · exact h.mapped x s hx
              · intro k i hi
                obtain ⟨j, hj1, hj2⟩ := h.inmap k i hi
                refine ⟨j, hj1, ?_⟩
                simp only
                rw [List.getElem?_set, if_neg]
                · exact hj2
                · rintro rfl; exact hni (List.mem_of_getElem? hi)
            cases ans with
            | timeout =>
                have := setmap none (by intro s hs; cases hs) S.repr h.repr
                refine .inl ⟨_, rfl, this, fun a b e => e, fun _ _ => rfl, fun m hm => List.getElem?_set_ne fun e => hm e.symm,
                  fun e => (hal e).elim, ?_⟩
                intro _ hto
                exact absurd rfl (Prover.satProve_answer hto e)
            | unsat =>
                have hun := hP.unsat rfl
                have hsame : Equal N n r := by
                  intro v hv
                  obtain ⟨w, hw, _, h1, h2⟩ := norm v hv
                  rw [h1, h2, hun w hw]
                refine .inl ⟨_, rfl, setmap (some (u.xorb (Bool.xor (N.phaseOf n) (N.phaseOf r)))) ?_ _ (h.repr.set hrn hsame), fun a b e => e,
                  fun m hm => List.getElem?_set_ne fun e => hm e.symm, fun m hm => List.getElem?_set_ne fun e => hm e.symm,
                  fun e => (hal e).elim, ?_⟩
                · rintro s rfl'
                  obtain rfl := Option.some.inj rfl'
                  refine ⟨uv, fun v w hv hw hp => ?_⟩
                  have h1 := uval v w hv hw hp
                  have h2 := hsame v hv
                  rw [show (u.xorb (Bool.xor (N.phaseOf n) (N.phaseOf r))).val w = Bool.xor (Bool.xor (N.phaseOf n) (N.phaseOf r)) (u.val w) by
                    simp only [Sig.xorb, Sig.val]
                    cases u.compl <;> cases N.phaseOf n <;> cases N.phaseOf r <;> cases w u.index <;> rfl, h1]
                  revert h2
                  cases v n <;> cases v r <;> cases N.phaseOf n <;> cases N.phaseOf r <;> decide
                · intro _ _ _ r' u' h1 _ _
                  rw [hr] at h1
                  obtain rfl := Option.some.inj h1
                  exact ⟨⟨_, List.getElem?_set_self hnm⟩, .inl ⟨hsame, List.getElem?_set_self hnr⟩⟩
            | sat model =>
                dsimp only
                have hS : Swept N E { S with prover := P, asks := q } k := { h with prover := hP.ok, plen := hPl }
                obtain ⟨v, w, hv, hw, hp, hval, hag⟩ := h.cex hN hP.ok model
                rcases resimulate_spec hN.wf E (S := { S with prover := P, asks := q }) (model := model) h.cls h.marks h.mark0 hn hr hrn' hv hval with
                  ⟨K, marks, c, e2, hK, hm, hm0, hfin, hd⟩ | ⟨e2, i, hi, s, hs1, hs2⟩
                · rw [e2]
                  refine .inl ⟨_, rfl, { hS with cls := hK, marks := hm, mark0 := hm0 }, hfin, fun _ _ => rfl, fun _ _ => rfl, fun e => (hal e).elim, ?_⟩
                  intro hR _ hsm r' u' h1 _ _
                  rw [hr] at h1
                  obtain rfl := Option.some.inj h1
                  have hdiff : Bool.xor (v r) (N.phaseOf r) ≠ Bool.xor (v n) (N.phaseOf n) := by
                    rw [tval.norm hN h.built h.inputs hn tv hv hw hp, uval.norm hN h.built h.inputs (by omega) uv hv hw hp]
                    exact hP.sat hR model rfl w hw (hag (by omega))
                  exact ⟨⟨t, ht⟩, .inr ⟨fun he => hdiff (he v hv).symm, rfl, hd hdiff⟩⟩
                · right
                  refine ⟨e2, ?_⟩
                  by_contra hlt
                  obtain ⟨sv, -⟩ := h.mapped i s hs1
                  exact varValue_some hP.ok (by omega) model sv hs2
          · rw [e]
            exact .inr ⟨rfl, by rw [← h.plen]; exact hb⟩

/-- What becomes of the gate `n` and its representative. -/
structure GateFate (N : Aig) (E : Env) (S S' : Sweep) (n : Nat) (a b : Sig) : Prop where
  finer : ∀ a b : Nat, S'.cls.reprs[a]? = S'.cls.reprs[b]? → S.cls.reprs[a]? = S.cls.reprs[b]?
  repr : ∀ m : Nat, m ≠ n → S'.repr[m]? = S.repr[m]?
  map : ∀ m : Nat, m ≠ n → S'.map[m]? = S.map[m]?
  decided : Right E.solve → (∀ k cs as, E.solve k cs as ≠ .timeout) → N.nodes.length < 1000 → ∀ (x y : Sig),
    S.map[a.index]? = some (some x) → S.map[b.index]? = some (some y) →
    ∀ r : Nat, S.cls.reprs[n]? = some r → (r ≠ n → ∃ u, S.map[r]? = some (some u)) →
      (∃ s, S'.map[n]? = some (some s)) ∧ (r = n → S'.repr[n]? = S.repr[n]?) ∧
      (r ≠ n → (Equal N n r ∧ S'.repr[n]? = some r) ∨ (¬ Equal N n r ∧ S'.repr[n]? = S.repr[n]? ∧ S'.cls.reprs[n]? ≠ S'.cls.reprs[r]?))

theorem sweepGate_spec {N : Aig} (hN : N.Phased) {E : Env} (hs : Prover.Sound E.solve) {S : Sweep} {k n : Nat} (h : Swept N E S (k + 1)) {a b : Sig}
    (g : N.IsGate n a b) :
    (∃ S', sweepGate N E S n = some S' ∧ Swept N E S' k ∧ GateFate N E S S' n a b) ∨ (sweepGate N E S n = none ∧ 1000 ≤ N.nodes.length) := by
  obtain ⟨l1, l2, l3, l4⟩ := hN.wf.isGate_lt g
  have hni : n ∉ N.inputs := g.2.1
  rw [sweepGate, g.kids]
  dsimp only
  obtain ⟨oa, hoa⟩ : ∃ o, S.map[a.index]? = some o := ⟨_, List.getElem?_eq_getElem (by rw [h.mlen]; omega)⟩
  obtain ⟨ob, hob⟩ : ∃ o, S.map[b.index]? = some o := ⟨_, List.getElem?_eq_getElem (by rw [h.mlen]; omega)⟩
  rw [hoa, hob]
  have hskip : Swept N E S k := { h with small := by have := h.small; omega }
  cases oa with
  | none =>
      refine .inl ⟨S, by cases ob <;> rfl, hskip, fun a b e => e, fun _ _ => rfl, fun _ _ => rfl, ?_⟩
      intro _ _ _ x y hx
      rw [hoa] at hx; cases hx
  | some x =>
      cases ob with
      | none =>
          refine .inl ⟨S, rfl, hskip, fun a b e => e, fun _ _ => rfl, fun _ _ => rfl, ?_⟩
          intro _ _ _ x y _ hy
          rw [hob] at hy; cases hy
      | some y =>
          dsimp only
          obtain ⟨xv, xval⟩ := h.mapped _ x hoa
          obtain ⟨yv, yval⟩ := h.mapped _ y hob
          have sp := Aig.createAnd_spec h.built.wf (a := x.xorb a.compl) (b := y.xorb b.compl) xv yv
          have hlen : (S.net.createAnd (x.xorb a.compl) (y.xorb b.compl)).1.nodes.length ≤ S.net.nodes.length + 1 := by
            rcases Aig.createAnd_cases S.net (x.xorb a.compl) (y.xorb b.compl) with e | ⟨c, d, -, -, -, -, -, e⟩
            · rw [e]; omega
            · rw [e, Aig.addAnd_length]
          generalize S.net.createAnd (x.xorb a.compl) (y.xorb b.compl) = Q at sp hlen
          have hsm := h.small
          have hSw : Swept N E { S with net := Q.1, map := S.map.set n (some Q.2) } k := by
            have keep : ∀ {z : Nat} {s : Sig}, S.net.Valid s → SameVal N S.net z s → SameVal N Q.1 z s := by
              intro z s _ hz v w hv hw hp
              refine hz v w hv (sp.ext.models hw) ?_
              intro q i j hi hj
              exact hp q i j hi (by rw [sp.inputs]; exact hj)
            refine { h with built := sp.built h.built, inputs := by simp only; rw [sp.inputs]; exact h.inputs, small := by simp only; omega,
                            mlen := by rw [List.length_set]; exact h.mlen, mapped := ?_, inmap := ?_,
                            prover := h.prover.ext sp.ext (by have := h.plen; simp only; omega) }
            · intro z s hz
              simp only at hz ⊢
              rw [List.getElem?_set] at hz
              split at hz
              · next e =>
                subst e
                split at hz
                · obtain rfl := Option.some.inj (Option.some.inj hz)
                  refine ⟨sp.valid, fun v w hv hw hp => ?_⟩
                  rw [sp.val w hw, hv.gate _ a b g]
                  have h1 := keep xv xval v w hv hw hp
                  have h2 := keep yv yval v w hv hw hp
                  simp only [Sig.xorb, Sig.val] at h1 h2 ⊢
                  rw [← h1, ← h2]
                  cases x.compl <;> cases y.compl <;> cases a.compl <;> cases b.compl <;> cases w x.index <;> cases w y.index <;> rfl
                · cases hz
              · obtain ⟨q1, q2⟩ := h.mapped z s hz
                exact ⟨sp.ext.valid q1, keep q1 q2⟩
            · intro q i hi
              obtain ⟨j, hj1, hj2⟩ := h.inmap q i hi
              refine ⟨j, by simp only; rw [sp.inputs]; exact hj1, ?_⟩
              simp only
              rw [List.getElem?_set, if_neg]
              · exact hj2
              · rintro rfl; exact hni (List.mem_of_getElem? hi)
          rcases sweepNode_spec hN hs hSw l4 hni (t := Q.2) (List.getElem?_set_self (by rw [h.mlen]; exact l4)) with ⟨S', e, h', hf⟩ | hb
          · refine .inl ⟨S', e, h', hf.finer, hf.repr, fun m hm => (hf.map m hm).trans (List.getElem?_set_ne fun e => hm e.symm), ?_⟩
            intro hR hto hlt x' y' _ _ r hr hrm
            by_cases hrn : r = n
            · subst hrn
              obtain ⟨h1, h2⟩ := hf.alone hr
              exact ⟨⟨Q.2, h2.trans (List.getElem?_set_self (by rw [h.mlen]; exact l4))⟩, fun _ => h1, fun h => absurd rfl h⟩
            · obtain ⟨u, hu⟩ := hrm hrn
              obtain ⟨h1, h2⟩ := hf.decided hR hto hlt r u hr hrn ((List.getElem?_set_ne fun e => hrn e.symm).trans hu)
              exact ⟨h1, fun h => absurd h hrn, fun _ => h2⟩
          · exact .inr hb

theorem sweepGates_spec {N : Aig} (hN : N.Phased) {E : Env} (hs : Prover.Sound E.solve) : ∀ (l : List Nat) (S : Sweep), (∀ n ∈ l, ∃ a b, N.IsGate n a b) →
    Swept N E S l.length → (∃ S', sweepGates N E l S = some S' ∧ Swept N E S' 0) ∨ (sweepGates N E l S = none ∧ 1000 ≤ N.nodes.length)
  | [], S, _, h => .inl ⟨S, rfl, h⟩
  | n :: l, S, hg, h => by
      obtain ⟨a, b, g⟩ := hg n List.mem_cons_self
      rw [sweepGates]
      rcases sweepGate_spec hN hs (k := l.length) h g with ⟨S1, e1, h1, _⟩ | ⟨e1, hb⟩
      · rw [e1]
        exact sweepGates_spec hN hs l S1 (fun m hm => hg m (List.mem_cons_of_mem _ hm)) h1
      · rw [e1]; exact .inr ⟨rfl, hb⟩

/-- the inputs that have been created -/
structure Inputs (size : Nat) (pre : List Nat) (F : Aig) (m : SMap) : Prop where
  built : F.Built
  len : F.inputs.length = pre.length
  nodes : F.nodes.length = pre.length + 1
  mlen : m.length = size
  zero : m[0]? = some (some ⟨0, false⟩)
  inmap : ∀ q i : Nat, pre[q]? = some i → ∃ j, F.inputs[q]? = some j ∧ m[i]? = some (some ⟨j, false⟩)
  only : ∀ (x : Nat) (s : Sig), m[x]? = some (some s) → (x = 0 ∧ s = ⟨0, false⟩) ∨ ∃ q j : Nat, pre[q]? = some x ∧ F.inputs[q]? = some j ∧ s = ⟨j, false⟩

theorem sweepInputs_spec {size : Nat} : ∀ (l pre : List Nat) (F : Aig) (m : SMap), (pre ++ l).Nodup → (∀ i ∈ l, 0 < i ∧ i < size) →
    Inputs size pre F m → Inputs size (pre ++ l) (sweepInputs l (F, m)).1 (sweepInputs l (F, m)).2
  | [], pre, F, m, _, _, h => by rw [List.append_nil]; exact h
  | i :: l, pre, F, m, hnd, hl, h => by
      have hi := hl i List.mem_cons_self
      have hip : i ∉ pre := fun hx => by
        have := (List.nodup_append.1 hnd).2.2 i hx i List.mem_cons_self
        exact this rfl
      have e : pre ++ i :: l = (pre ++ [i]) ++ l := by simp
      rw [sweepInputs, e]
      refine sweepInputs_spec l (pre ++ [i]) _ _ (by rw [← e]; exact hnd) (fun x hx => hl x (List.mem_cons_of_mem _ hx)) ?_
      have hlen := h.len
      refine ⟨.pi h.built, ?_, ?_, by rw [List.length_set]; exact h.mlen, (List.getElem?_set_ne (by omega)).trans h.zero, ?_, ?_⟩
      · simp [Aig.createPi, h.len]
      · simp [Aig.createPi, h.nodes]
      · intro q x hq
        by_cases hql : q < pre.length
        · rw [List.getElem?_append_left hql] at hq
          obtain ⟨j, h1, h2⟩ := h.inmap q x hq
          refine ⟨j, ?_, ?_⟩
          · simp only [Aig.createPi]; rw [List.getElem?_append_left (by omega)]; exact h1
          · rw [List.getElem?_set, if_neg]
            · exact h2
            · rintro rfl; exact hip (List.mem_of_getElem? hq)
        · have hql' : q = pre.length := by
            have := (List.getElem?_eq_some_iff.1 hq).1
            simp at this; omega
          subst hql'
          rw [List.getElem?_append_right (Nat.le_refl _)] at hq
          obtain rfl : i = x := by simpa using hq
          refine ⟨F.nodes.length, ?_, ?_⟩
          · simp only [Aig.createPi]; rw [← hlen, List.getElem?_append_right (Nat.le_refl _)]; simp
          · simp only [Aig.createPi]; rw [List.getElem?_set_self (by rw [h.mlen]; exact hi.2)]
      · intro x s hx
        rw [List.getElem?_set] at hx
        split at hx
        · next e =>
          subst e
          split at hx
          · obtain rfl := Option.some.inj (Option.some.inj hx)
            right
            refine ⟨pre.length, F.nodes.length, by simp, ?_, rfl⟩
            simp only [Aig.createPi]; rw [← hlen, List.getElem?_append_right (Nat.le_refl _)]; simp
          · cases hx
        · rcases h.only x s hx with h1 | ⟨q, j, h1, h2, h3⟩
          · exact .inl h1
          · right
            refine ⟨q, j, ?_, ?_, h3⟩
            · rw [List.getElem?_append_left (List.getElem?_eq_some_iff.1 h1).1]; exact h1
            · simp only [Aig.createPi]; rw [List.getElem?_append_left (List.getElem?_eq_some_iff.1 h2).1]; exact h2

theorem nodes_count {N : Aig} (hN : WF N) : N.inputs.length + 1 + N.gates.length ≤ N.nodes.length := by
  have hnd : (0 :: (N.inputs ++ N.gates)).Nodup := by
    refine List.nodup_cons.2 ⟨?_, ?_⟩
    · intro h
      rcases List.mem_append.1 h with h | h
      · exact absurd (hN.inputs_lt h).1 (by omega)
      · obtain ⟨a, b, g⟩ := (hN.mem_gates 0).1 h
        exact g.1 rfl
    · refine List.nodup_append.2 ⟨hN.inputsNodup, ?_, ?_⟩
      · exact (List.Pairwise.filter _ List.nodup_range)
      · rintro x hx y hy rfl
        obtain ⟨a, b, g⟩ := (hN.mem_gates x).1 hy
        exact g.2.1 hx
  have := nodup_bound (k := N.nodes.length) hnd (by
    intro x hx
    rcases List.mem_cons.1 hx with rfl | hx
    · exact hN.pos
    · rcases List.mem_append.1 hx with h | h
      · exact (hN.inputs_lt h).2
      · obtain ⟨a, b, g⟩ := (hN.mem_gates x).1 h
        exact (hN.isGate_lt g).2.2.2)
  simp at this
  omega

/-- the gates of the list have been handled -/
structure Done (N : Aig) (E : Env) (pre : List Nat) (S : Sweep) : Prop where
  ident : ∀ m : Nat, m < N.nodes.length → m ∉ pre → S.repr[m]? = some m
  total : Right E.solve → (∀ k cs as, E.solve k cs as ≠ .timeout) → N.nodes.length < 1000 →
    ∀ m : Nat, m < N.nodes.length → m = 0 ∨ m ∈ N.inputs ∨ m ∈ pre → ∃ s, S.map[m]? = some (some s)

/-- the smaller nodes have been handled -/
theorem Done.below {N : Aig} (hN : WF N) {E : Env} {pre post : List Nat} {S : Sweep} (h : Done N E pre S) {n : Nat} (hg : N.gates = pre ++ n :: post)
    (hR : Right E.solve) (ht : ∀ k cs as, E.solve k cs as ≠ .timeout) (hlt : N.nodes.length < 1000) (hn : n < N.nodes.length) {m : Nat} (hm : m < n) :
    ∃ s, S.map[m]? = some (some s) := by
  refine h.total hR ht hlt m (by omega) ?_
  by_cases h0 : m = 0
  · exact .inl h0
  · by_cases hi : m ∈ N.inputs
    · exact .inr (.inl hi)
    · have hmg : m ∈ N.gates := by
        obtain ⟨nd, hnd⟩ : ∃ nd, N.nodes[m]? = some nd := ⟨_, List.getElem?_eq_getElem (by omega)⟩
        exact (hN.mem_gates m).2 ⟨_, _, hN.isGate_of h0 hi hnd⟩
      have hp : N.gates.Pairwise (· < ·) := List.Pairwise.filter _ List.pairwise_lt_range
      rw [hg] at hmg hp
      rcases List.mem_append.1 hmg with hmg | hmg
      · exact .inr (.inr hmg)
      · exfalso
        rcases List.mem_cons.1 hmg with rfl | hmg
        · omega
        · have := (List.pairwise_cons.1 (List.pairwise_append.1 hp).2.1).1 m hmg
          omega

theorem Done.step {N : Aig} (hN : WF N) {E : Env} {pre post : List Nat} {S S' : Sweep} (h : Done N E pre S) (hc : S.cls.Ok N.nodes.length) {n : Nat}
    {a b : Sig} (hg : N.gates = pre ++ n :: post) (g : N.IsGate n a b) (hf : GateFate N E S S' n a b) : Done N E (pre ++ [n]) S' := by
  obtain ⟨l1, l2, l3, l4⟩ := hN.isGate_lt g
  refine ⟨fun m hm hp => ?_, fun hR ht hlt m hm hp => ?_⟩
  · simp only [List.mem_append, List.mem_singleton, not_or] at hp
    rw [hf.repr m hp.2, h.ident m hm hp.1]
  · by_cases hmn : m = n
    · subst hmn
      obtain ⟨x, hx⟩ := h.below hN hg hR ht hlt l4 (m := a.index) (by omega)
      obtain ⟨y, hy⟩ := h.below hN hg hR ht hlt l4 (m := b.index) (by omega)
      obtain ⟨r, hr⟩ : ∃ r, S.cls.reprs[m]? = some r := ⟨_, List.getElem?_eq_getElem (by rw [hc.lenr]; exact l4)⟩
      have hrm := (hc.repr hr).1
      exact (hf.decided hR ht hlt x y hx hy r hr fun hne => h.below hN hg hR ht hlt l4 (by omega)).1
    · rw [hf.map m hmn]
      refine h.total hR ht hlt m hm ?_
      rcases hp with hp | hp | hp
      · exact .inl hp
      · exact .inr (.inl hp)
      · rcases List.mem_append.1 hp with hp | hp
        · exact .inr (.inr hp)
        · exact absurd (List.mem_singleton.1 hp) hmn

/-- the run over a part of the gates -/
theorem sweepGates_run {N : Aig} (hN : N.Phased) {E : Env} (hs : Prover.Sound E.solve) : ∀ (l pre post : List Nat) (S S' : Sweep),
    N.gates = pre ++ (l ++ post) → Swept N E S (l ++ post).length → Done N E pre S → sweepGates N E l S = some S' →
    Swept N E S' post.length ∧ Done N E (pre ++ l) S' ∧
      (∀ a b : Nat, S'.cls.reprs[a]? = S'.cls.reprs[b]? → S.cls.reprs[a]? = S.cls.reprs[b]?) ∧ ∀ m : Nat, m ∉ l → S'.repr[m]? = S.repr[m]?
  | [], pre, post, S, S', _, h, hd, e => by
      obtain rfl := Option.some.inj e
      rw [List.append_nil]
      exact ⟨h, hd, fun _ _ e => e, fun _ _ => rfl⟩
  | n :: l, pre, post, S, S', hg, h, hd, e => by
      obtain ⟨a, b, g⟩ := (hN.wf.mem_gates n).1 (by rw [hg]; simp)
      rw [sweepGates] at e
      rcases sweepGate_spec hN hs (k := (l ++ post).length) h g with ⟨S1, e1, h1, hf⟩ | ⟨e1, -⟩
      · rw [e1] at e
        obtain ⟨q1, q2, q3, q4⟩ := sweepGates_run hN hs l (pre ++ [n]) post S1 S' (by rw [hg]; simp) h1
          (hd.step hN.wf h.cls (post := l ++ post) (by rw [hg]; simp) g hf) e
        rw [List.append_assoc] at q2
        refine ⟨q1, q2, fun a b e => hf.finer a b (q3 a b e), fun m hm => ?_⟩
        rw [q4 m fun h => hm (List.mem_cons_of_mem _ h), hf.repr m fun h => hm (h ▸ List.mem_cons_self)]
      · rw [e1] at e; cases e

theorem sweepStart_spec {N : Aig} (hN : N.Phased) {E : Env} (hw : 0 < E.nwords) :
    ∃ S, sweepStart N E = some S ∧ Swept N E S N.gates.length ∧ Done N E [] S := by
  have hpos := hN.wf.pos
  obtain ⟨K, c, e1, hK, _⟩ := computeClasses_spec hN.wf hw E.rand
  have hin := sweepInputs_spec (size := N.nodes.length) N.inputs [] Aig.empty ((List.replicate N.nodes.length none).set 0 (some ⟨0, false⟩))
    (by simpa using hN.wf.inputsNodup) (fun i hi => hN.wf.inputs_lt hi) (by
      refine ⟨.empty, rfl, rfl, by simp, List.getElem?_set_self (by simpa using hpos), by simp, ?_⟩
      intro x s hx
      rw [List.getElem?_set] at hx
      split at hx
      · next e =>
        subst e
        left
        split at hx
        · exact ⟨rfl, (Option.some.inj (Option.some.inj hx)).symm⟩
        · cases hx
      · rw [List.getElem?_replicate] at hx
        split at hx
        · cases Option.some.inj hx
        · cases hx)
  rw [List.nil_append] at hin
  generalize hq : sweepInputs N.inputs (Aig.empty, (List.replicate N.nodes.length none).set 0 (some ⟨0, false⟩)) = q at hin
  have hc := nodes_count hN.wf
  have hn := hin.nodes
  obtain ⟨P, e2, hP, hl⟩ := Prover.init_spec (flip := E.sat.polarFlip) hin.built (size := N.nodes.length) (by omega)
  refine ⟨⟨q.1, q.2, List.range N.nodes.length, K, P, List.replicate N.nodes.length false, c, 0⟩, by rw [sweepStart, e1, e2]; dsimp only; rw [hq],
    ⟨hin.built, hin.len, by simp only; omega, hin.mlen, ?_, hin.inmap, ?_, hK, hP, hl, by simp, by simp [hpos]⟩, ?_, ?_⟩
  · intro x s hx
    rcases hin.only x s hx with ⟨rfl, rfl⟩ | ⟨k, j, h1, h2, rfl⟩
    · refine ⟨show 0 < q.1.nodes.length by omega, fun v w hv hw _ => ?_⟩
      rw [Sig.val, hv.const, hw.const]; rfl
    · refine ⟨(hin.built.wf.inputs_lt (List.mem_of_getElem? h2)).2, fun v w hv hw hp => ?_⟩
      rw [Sig.val, ← hp k x j h1 h2]
      simp
  · refine ⟨by simp, ?_, ?_⟩
    · intro n r hr
      obtain ⟨_, rfl⟩ := List.getElem?_eq_some_iff.1 hr
      simp
    · intro n r hr v _
      obtain ⟨_, rfl⟩ := List.getElem?_eq_some_iff.1 hr
      simp
  · intro m hm _
    simp only
    rw [List.getElem?_range hm]
  · intro _ _ _ m _ h
    rcases h with rfl | h | h
    · exact ⟨_, hin.zero⟩
    · obtain ⟨k, hk⟩ := List.getElem?_of_mem h
      obtain ⟨j, -, hj⟩ := hin.inmap k m hk
      exact ⟨_, hj⟩
    · cases h

theorem manSweep_spec {N : Aig} (hN : N.Phased) {E : Env} (hw : 0 < E.nwords) (hs : Prover.Sound E.solve) :
    (∃ S, manSweep N E = some S ∧ Swept N E S 0) ∨ (manSweep N E = none ∧ 1000 ≤ N.nodes.length) := by
  obtain ⟨S, e, h, _⟩ := sweepStart_spec hN hw
  rw [manSweep, e, Option.bind_some]
  exact sweepGates_spec hN hs N.gates S (fun n hn => (hN.wf.mem_gates n).1 hn) h

end Verif.Choice
