import Verif.Validator.Basic
import Verif.Props.C43
import Verif.Props.C14

set_option autoImplicit false

/-!
# Invariant of the circuit validator
-/

namespace Verif.Validator
open Cnf (litNot litNotCond onAnd onXor onMaj onXor3 Answer LitTrue Satisfies litTrue_not litTrue_cond satisfies_append satisfies_cons)
open Aig (WF Models IsGate)

/-- the node has a literal that may be used -/
def Known (N : Aig) (S : State) (n : Nat) : Prop := n = 0 ∨ (∃ i, i < N.numPis ∧ N.inputs[i]? = some n) ∨ n ∈ S.built

/-- the literal has the value of the node -/
def Agree (s v : Nat → Bool) (lits : List Nat) (n : Nat) : Prop := ∀ l, lits[n]? = some l → (LitTrue s l ↔ v n = true)

/-- temporary literals and what they stand for -/
abbrev Tmp := Nat × ((Nat → Bool) → Bool)

def AgreeAll (N : Aig) (S : State) (T : List Tmp) (s v : Nat → Bool) : Prop :=
  (∀ n, Known N S n → Agree s v S.lits n) ∧ ∀ t ∈ T, (LitTrue s t.1 ↔ t.2 v = true)

structure Inv (N : Aig) (S : State) (T : List Tmp) : Prop where
  wf : WF N
  piLen : N.numPis ≤ N.inputs.length
  len : S.lits.length = N.nodes.length
  zero : S.lits[0]? = some 0
  pis : ∀ i n : Nat, i < N.numPis → N.inputs[i]? = some n → S.lits[n]? = some (2 * (i + 1))
  nodes : ∀ n ∈ S.built, n < N.nodes.length
  lit : ∀ n l : Nat, Known N S n → S.lits[n]? = some l → l / 2 < S.nvars
  nvars : N.numPis < S.nvars
  bound : ∀ c ∈ S.clauses, ∀ l ∈ c, l / 2 < S.nvars
  tmp : ∀ t ∈ T, t.1 / 2 < S.nvars
  sound : ∀ s v, Satisfies s S.clauses → N.Models v → (∀ n ∈ N.inputs, Known N S n → Agree s v S.lits n) → AgreeAll N S T s v
  complete : ∀ v, N.Models v → ∃ s, Satisfies s S.clauses ∧ AgreeAll N S T s v
  cex : S.cex.length = N.numPis

theorem numPis_le {N : Aig} (h : Aig.Built N) : N.numPis ≤ N.inputs.length := by
  induction h with
  | empty => simp [Aig.empty]
  | pi _ ih => simp [Aig.createPi]; omega
  | ro _ ih => simp [Aig.createRo]; omega
  | po _ _ ih => exact ih
  | ri _ _ ih => exact ih
  | and h ha hb ih =>
    have := Aig.createAnd_spec h.wf ha hb
    rw [this.inputs, this.numPis]; exact ih

theorem isPi_iff {N : Aig} (h : WF N) {n : Nat} (h0 : n ≠ 0) : N.isPi n = true ↔ ∃ i, i < N.numPis ∧ N.inputs[i]? = some n := by
  constructor
  · intro hp
    unfold Aig.isPi at hp
    split at hp
    · rename_i nd hnd
      simp only [Bool.and_eq_true, decide_eq_true_eq] at hp
      have hci : N.isCi n = true := by unfold Aig.isCi; rw [hnd]; exact hp.1
      obtain ⟨k, hk⟩ := List.mem_iff_getElem?.1 (h.ci_input h0 hci)
      obtain ⟨_, nd', hnd', e0, _⟩ := h.input k n hk
      rw [hnd] at hnd'
      obtain rfl := Option.some.inj hnd'
      rw [e0, Sig.data_ofData] at hp
      exact ⟨k, hp.2, hk⟩
    · cases hp
  · rintro ⟨i, hi, hn⟩
    obtain ⟨_, nd, hnd, e0, e1, _⟩ := h.input i n hn
    unfold Aig.isPi
    rw [hnd]
    simp [e0, e1, Sig.data_ofData, hi]

theorem skip_iff {N : Aig} (h : WF N) {S : State} {n : Nat} : skip N S n = true ↔ Known N S n := by
  unfold skip Known
  by_cases h0 : n = 0
  · simp [h0]
  · simp only [Bool.or_eq_true, isPi_iff h h0, List.contains_iff_mem, beq_iff_eq, h0, or_false, false_or]
    exact or_comm

theorem litTrue_congr {s s' : Nat → Bool} {l : Nat} (h : s (l / 2) = s' (l / 2)) : LitTrue s l ↔ LitTrue s' l := by
  unfold LitTrue; rw [h]

theorem satisfies_congr {s s' : Nat → Bool} {cs : List (List Nat)} (h : ∀ c ∈ cs, ∀ l ∈ c, s (l / 2) = s' (l / 2)) (hs : Satisfies s cs) :
    Satisfies s' cs := by
  intro c hc
  obtain ⟨l, hl, ht⟩ := hs c hc
  exact ⟨l, hl, (litTrue_congr (h c hc l hl)).1 ht⟩

theorem litTrue_two (s : Nat → Bool) (k : Nat) : LitTrue s (2 * k) ↔ s k = true := by
  unfold LitTrue
  rw [show 2 * k / 2 = k by omega, show 2 * k % 2 = 0 by omega]
  simp

/-- assignment with another value for one variable -/
def upd (s : Nat → Bool) (k : Nat) (b : Bool) : Nat → Bool := fun j => if j = k then b else s j

theorem upd_lt {s : Nat → Bool} {k j : Nat} {b : Bool} (h : j < k) : s j = upd s k b j := by
  unfold upd; rw [if_neg (by omega)]

theorem upd_same {s : Nat → Bool} {k : Nat} {b : Bool} : upd s k b k = b := by simp [upd]

theorem AgreeAll.upd {N : Aig} {S : State} {T : List Tmp} (h : Inv N S T) {s v : Nat → Bool} (ha : AgreeAll N S T s v) (b : Bool) :
    AgreeAll N S T (upd s S.nvars b) v := by
  refine ⟨fun n hn l hl => ?_, fun t ht => ?_⟩
  · rw [← ha.1 n hn l hl]
    exact (litTrue_congr (upd_lt (h.lit n l hn hl))).symm
  · rw [← ha.2 t ht]
    exact (litTrue_congr (upd_lt (h.tmp t ht))).symm

/-- a satisfying assignment is a valuation of the network -/
theorem Inv.model {N : Aig} {S : State} {T : List Tmp} (h : Inv N S T) {s : Nat → Bool} (hs : Satisfies s S.clauses) :
    ∃ v, N.Models v ∧ AgreeAll N S T s v := by
  have hc := h.wf.consistent_value fun k => match N.inputs[k]? with
    | some n => match S.lits[n]? with
      | some l => decide (LitTrue s l)
      | none => false
    | none => false
  refine ⟨_, hc.models, h.sound s _ hs hc.models fun n hn _ l hl => ?_⟩
  obtain ⟨k, hk⟩ := List.mem_iff_getElem?.1 hn
  rw [hc.input k n hk]
  simp only [hk, hl, decide_eq_true_eq]

/-- a fresh variable for something temporary -/
theorem Inv.fresh {N : Aig} {S : State} {T T' : List Tmp} (h : Inv N S T) (cs : List (List Nat)) (g : (Nat → Bool) → Bool)
    (hb : ∀ c ∈ cs, ∀ l ∈ c, l / 2 ≤ S.nvars)
    (hc : ∀ s v, N.Models v → AgreeAll N S T s v → s S.nvars = g v → Satisfies s cs)
    (hT : ∀ t ∈ T', t ∈ T ∨ t = (2 * S.nvars, g) ∧ ∀ s v, N.Models v → AgreeAll N S T s v → Satisfies s cs → (s S.nvars = true ↔ g v = true)) :
    Inv N { S with nvars := S.nvars + 1, clauses := S.clauses ++ cs } T' := by
  have hk : ∀ n, Known N { S with nvars := S.nvars + 1, clauses := S.clauses ++ cs } n ↔ Known N S n := fun _ => Iff.rfl
  refine ⟨h.wf, h.piLen, h.len, h.zero, h.pis, h.nodes, fun n l hn hl => Nat.lt_succ_of_lt (h.lit n l hn hl), Nat.lt_succ_of_lt h.nvars, ?_, ?_, ?_, ?_,
    h.cex⟩
  · intro c hc' l hl
    rcases List.mem_append.1 hc' with hc' | hc'
    · exact Nat.lt_succ_of_lt (h.bound c hc' l hl)
    · exact Nat.lt_succ_of_le (hb c hc' l hl)
  · intro t ht
    rcases hT t ht with ht | ⟨rfl, _⟩
    · exact Nat.lt_succ_of_lt (h.tmp t ht)
    · show 2 * S.nvars / 2 < S.nvars + 1
      omega
  · intro s v hs hv hi
    obtain ⟨h1, h2⟩ := (satisfies_append _ _ _).1 hs
    have ha := h.sound s v h1 hv hi
    refine ⟨ha.1, fun t ht => ?_⟩
    rcases hT t ht with ht | ⟨rfl, hq⟩
    · exact ha.2 t ht
    · rw [litTrue_two]; exact hq s v hv ha h2
  · intro v hv
    obtain ⟨s, hs, ha⟩ := h.complete v hv
    refine ⟨upd s S.nvars (g v), (satisfies_append _ _ _).2 ⟨?_, ?_⟩, ?_⟩
    · exact satisfies_congr (fun c hc' l hl => upd_lt (h.bound c hc' l hl)) hs
    · exact hc _ v hv (ha.upd h _) upd_same
    · refine ⟨(ha.upd h _).1, fun t ht => ?_⟩
      rcases hT t ht with ht | ⟨rfl, _⟩
      · exact (ha.upd h _).2 t ht
      · rw [litTrue_two, upd_same]

theorem Known.lt {N : Aig} {S : State} {T : List Tmp} (h : Inv N S T) {n : Nat} (hn : Known N S n) : n < N.nodes.length := by
  rcases hn with rfl | ⟨i, _, hi⟩ | hn
  · exact h.wf.pos
  · exact (h.wf.inputs_lt (List.mem_of_getElem? hi)).2
  · exact h.nodes n hn

theorem Known.get {N : Aig} {S : State} {T : List Tmp} (h : Inv N S T) {n : Nat} (hn : Known N S n) : ∃ l, S.lits[n]? = some l :=
  ⟨_, List.getElem?_eq_getElem (by rw [h.len]; exact hn.lt h)⟩

/-- a fresh variable for a node -/
theorem Inv.node {N : Aig} {S : State} {T : List Tmp} (h : Inv N S T) {n : Nat} (hn : n < N.nodes.length) (hk : ¬ Known N S n) (cs : List (List Nat))
    (hb : ∀ c ∈ cs, ∀ l ∈ c, l / 2 ≤ S.nvars)
    (hc : ∀ s v, N.Models v → AgreeAll N S T s v → s S.nvars = v n → Satisfies s cs)
    (hs : n ∉ N.inputs → ∀ s v, N.Models v → AgreeAll N S T s v → Satisfies s cs → (s S.nvars = true ↔ v n = true)) :
    Inv N { S with lits := S.lits.set n (2 * S.nvars), built := n :: S.built, nvars := S.nvars + 1, clauses := S.clauses ++ cs } T := by
  have hl : n < S.lits.length := by rw [h.len]; exact hn
  have hget : ∀ m, m ≠ n → (S.lits.set n (2 * S.nvars))[m]? = S.lits[m]? := fun m hm => List.getElem?_set_ne (Ne.symm hm)
  have hgetn : (S.lits.set n (2 * S.nvars))[n]? = some (2 * S.nvars) := by rw [List.getElem?_set_self hl]
  have hK : ∀ m, Known N { S with lits := S.lits.set n (2 * S.nvars), built := n :: S.built, nvars := S.nvars + 1, clauses := S.clauses ++ cs } m →
      m = n ∨ m ≠ n ∧ Known N S m := by
    intro m hm
    by_cases e : m = n
    · exact Or.inl e
    · refine Or.inr ⟨e, ?_⟩
      rcases hm with hm | hm | hm
      · exact Or.inl hm
      · exact Or.inr (Or.inl hm)
      · exact Or.inr (Or.inr ((List.mem_cons.1 hm).resolve_left e))
  have hne : ∀ m, Known N S m → m ≠ n := fun m hm e => hk (e ▸ hm)
  refine ⟨h.wf, h.piLen, by simpa using h.len, ?_, ?_, ?_, ?_, Nat.lt_succ_of_lt h.nvars, ?_, fun t ht => Nat.lt_succ_of_lt (h.tmp t ht), ?_, ?_, h.cex⟩
  · rw [hget 0 (hne 0 (Or.inl rfl))]; exact h.zero
  · intro i m hi hm
    rw [hget m (hne m (Or.inr (Or.inl ⟨i, hi, hm⟩)))]; exact h.pis i m hi hm
  · intro m hm
    rcases List.mem_cons.1 hm with rfl | hm
    · exact hn
    · exact h.nodes m hm
  · intro m l hm hl'
    rcases hK m hm with rfl | ⟨e, hm⟩
    · rw [hgetn] at hl'
      obtain rfl := Option.some.inj hl'
      show 2 * S.nvars / 2 < S.nvars + 1
      omega
    · rw [hget m e] at hl'
      exact Nat.lt_succ_of_lt (h.lit m l hm hl')
  · intro c hc' l hl
    rcases List.mem_append.1 hc' with hc' | hc'
    · exact Nat.lt_succ_of_lt (h.bound c hc' l hl)
    · exact Nat.lt_succ_of_le (hb c hc' l hl)
  · intro s v hsat hv hi
    obtain ⟨h1, h2⟩ := (satisfies_append _ _ _).1 hsat
    have ha := h.sound s v h1 hv fun m hm hkm l hl' => by
      refine hi m hm ?_ l ((hget m (hne m hkm)).trans hl')
      rcases hkm with hkm | hkm | hkm
      · exact Or.inl hkm
      · exact Or.inr (Or.inl hkm)
      · exact Or.inr (Or.inr (List.mem_cons_of_mem _ hkm))
    refine ⟨fun m hm l hl' => ?_, ha.2⟩
    rcases hK m hm with rfl | ⟨e, hkm⟩
    · by_cases hin : m ∈ N.inputs
      · exact hi m hin hm l hl'
      · have hl'' : (S.lits.set m (2 * S.nvars))[m]? = some l := hl'
        rw [hgetn] at hl''
        obtain rfl := Option.some.inj hl''
        rw [litTrue_two]; exact hs hin s v hv ha h2
    · exact ha.1 m hkm l ((hget m e).symm.trans hl')
  · intro v hv
    obtain ⟨s, hsat, ha⟩ := h.complete v hv
    refine ⟨upd s S.nvars (v n), (satisfies_append _ _ _).2 ⟨?_, ?_⟩, ?_⟩
    · exact satisfies_congr (fun c hc' l hl => upd_lt (h.bound c hc' l hl)) hsat
    · exact hc _ v hv (ha.upd h _) upd_same
    · refine ⟨fun m hm l hl' => ?_, (ha.upd h _).2⟩
      rcases hK m hm with rfl | ⟨e, hkm⟩
      · have hl'' : (S.lits.set m (2 * S.nvars))[m]? = some l := hl'
        rw [hgetn] at hl''
        obtain rfl := Option.some.inj hl''
        rw [litTrue_two, upd_same]
      · exact (ha.upd h _).1 m hkm l ((hget m e).symm.trans hl')

/-- what `construct` leaves alone -/
structure Grow (N : Aig) (S S' : State) : Prop where
  known : ∀ n, Known N S n → Known N S' n ∧ S'.lits[n]? = S.lits[n]?
  asks : S'.asks = S.asks
  invokes : S'.invokes = S.invokes
  cex : S'.cex = S.cex

theorem Grow.refl (N : Aig) (S : State) : Grow N S S := ⟨fun _ h => ⟨h, rfl⟩, rfl, rfl, rfl⟩

theorem Grow.trans {N : Aig} {S S' S'' : State} (h : Grow N S S') (h' : Grow N S' S'') : Grow N S S'' :=
  ⟨fun n hn => ⟨(h'.known n (h.known n hn).1).1, (h'.known n (h.known n hn).1).2.trans (h.known n hn).2⟩, h'.asks.trans h.asks,
    h'.invokes.trans h.invokes, h'.cex.trans h.cex⟩

theorem grow_node {N : Aig} {S : State} {n : Nat} (hk : ¬ Known N S n) (k : Nat) (cs : List (List Nat)) :
    Grow N S { S with lits := S.lits.set n k, built := n :: S.built, nvars := S.nvars + 1, clauses := cs } := by
  refine ⟨fun m hm => ⟨?_, List.getElem?_set_ne (by rintro rfl; exact hk hm)⟩, rfl, rfl, rfl⟩
  rcases hm with hm | hm | hm
  · exact Or.inl hm
  · exact Or.inr (Or.inl hm)
  · exact Or.inr (Or.inr (List.mem_cons_of_mem _ hm))

theorem litNot_div (l : Nat) : litNot l / 2 = l / 2 := by unfold litNot; split <;> omega

theorem litNotCond_div (l : Nat) (c : Bool) : litNotCond l c / 2 = l / 2 := by
  unfold litNotCond; split
  · exact litNot_div l
  · rfl

/-- the literal of a fanin -/
theorem agree_sig {s v : Nat → Bool} {lits : List Nat} {a : Sig} {l : Nat} (h : Agree s v lits a.index) (hl : lits[a.index]? = some l) :
    LitTrue s (litNotCond l a.compl) ↔ a.val v = true := by
  rw [litTrue_cond, h l hl]
  unfold Sig.val
  cases a.compl <;> cases v a.index <;> simp

theorem construct_spec {N : Aig} {T : List Tmp} : ∀ (fuel n : Nat) (S : State), n < fuel → n < N.nodes.length → ¬ Known N S n → Inv N S T →
    ∃ S', construct N fuel n S = some S' ∧ Inv N S' T ∧ Grow N S S' ∧ Known N S' n ∧ ∀ m ∈ S'.built, m ∈ S.built ∨ m ≤ n := by
  intro fuel
  induction fuel with
  | zero => intro n S h; omega
  | succ fuel ih =>
    intro n S hf hn hk h
    obtain ⟨nd, hnd⟩ : ∃ nd, N.nodes[n]? = some nd := ⟨_, List.getElem?_eq_getElem hn⟩
    have h0 : n ≠ 0 := fun e => hk (Or.inl e)
    rw [construct]
    simp only [hnd]
    by_cases hci : N.isCi n = true
    · rw [if_pos hci]
      unfold newNode
      rw [if_pos (by rw [h.len]; exact hn)]
      have hin := h.wf.ci_input h0 hci
      have := h.node hn hk [] (by simp) (fun _ _ _ _ _ c hc => by cases hc) (fun hc => absurd hin hc)
      simp only [List.append_nil] at this
      exact ⟨_, rfl, this, grow_node hk _ _, Or.inr (Or.inr List.mem_cons_self), fun m hm => (List.mem_cons.1 hm).elim (fun e => Or.inr (by omega)) Or.inl⟩
    · rw [if_neg hci]
      have hin : n ∉ N.inputs := by
        intro hin
        obtain ⟨k, hk'⟩ := List.mem_iff_getElem?.1 hin
        obtain ⟨_, nd', hnd', e0, e1, _⟩ := h.wf.input k n hk'
        exact hci (by simp [Aig.isCi, hnd', e0, e1])
      have g := h.wf.isGate_of h0 hin hnd
      have hlt := h.wf.isGate_lt g
      have step : ∀ (c : Nat) (S : State), c < n → Inv N S T → ∃ S', (if skip N S c = true then some S else construct N fuel c S) = some S' ∧
          Inv N S' T ∧ Grow N S S' ∧ Known N S' c ∧ ∀ m ∈ S'.built, m ∈ S.built ∨ m ≤ c := by
        intro c S hc hS
        split
        · rename_i hsk
          exact ⟨S, rfl, hS, Grow.refl N S, (skip_iff h.wf).1 hsk, fun m hm => Or.inl hm⟩
        · rename_i hsk
          exact ih c S (by omega) (by omega) (fun hk => hsk ((skip_iff h.wf).2 hk)) hS
      obtain ⟨S1, e1, i1, g1, k1, b1⟩ := step nd.c0.index S (by omega) h
      rw [e1]
      dsimp only
      obtain ⟨l0, hl0⟩ := k1.get i1
      rw [hl0]
      dsimp only
      obtain ⟨S2, e2, i2, g2, k2, b2⟩ := step nd.c1.index S1 (by omega) i1
      rw [e2]
      dsimp only
      obtain ⟨l1, hl1⟩ := k2.get i2
      rw [hl1]
      dsimp only
      unfold newNode
      rw [if_pos (by rw [i2.len]; exact hn)]
      dsimp only
      have hk2 : ¬ Known N S2 n := by
        rintro (e | e | e)
        · exact hk (Or.inl e)
        · exact hk (Or.inr (Or.inl e))
        · rcases b2 n e with e | e
          · rcases b1 n e with e | e
            · exact hk (Or.inr (Or.inr e))
            · omega
          · omega
      have k1' := (g2.known _ k1).1
      have hl0' : S2.lits[nd.c0.index]? = some l0 := (g2.known _ k1).2.trans hl0
      have hval : ∀ s v, N.Models v → AgreeAll N S2 T s v → ((LitTrue s (litNotCond l0 nd.c0.compl) ∧ LitTrue s (litNotCond l1 nd.c1.compl)) ↔ v n = true) := by
        intro s v hv ha
        rw [agree_sig (ha.1 _ k1') hl0', agree_sig (ha.1 _ k2) hl1, hv.gate n _ _ g, Bool.and_eq_true]
      refine ⟨_, rfl, i2.node hn hk2 _ ?_ ?_ ?_, (g1.trans g2).trans (grow_node hk2 _ _), Or.inr (Or.inr List.mem_cons_self), ?_⟩
      · intro c hc l hl
        have a0 := i2.lit _ _ k1' hl0'
        have a1 := i2.lit _ _ k2 hl1
        have d0 := litNotCond_div l0 nd.c0.compl
        have d1 := litNotCond_div l1 nd.c1.compl
        simp only [onAnd, List.mem_cons, List.not_mem_nil, or_false] at hc
        rcases hc with rfl | rfl | rfl <;> simp only [List.mem_cons, List.not_mem_nil, or_false] at hl <;>
          rcases hl with rfl | rfl | hl <;> (try subst hl) <;> (try simp only [litNot_div, litNotCond_div]) <;> omega
      · intro s v hv ha hs
        rw [(Cnf.C43_gates s _ _ 0 _).1, litTrue_two, hval s v hv ha, hs]
      · intro _ s v hv ha hs
        rw [(Cnf.C43_gates s _ _ 0 _).1, litTrue_two, hval s v hv ha] at hs
        exact hs
      · intro m hm
        rcases List.mem_cons.1 hm with rfl | hm
        · exact Or.inr (by omega)
        · rcases b2 m hm with hm | hm
          · rcases b1 m hm with hm | hm
            · exact Or.inl hm
            · exact Or.inr (by omega)
          · exact Or.inr (by omega)

theorem need_spec {N : Aig} {S : State} {T : List Tmp} (h : Inv N S T) {n : Nat} (hn : n < N.nodes.length) :
    ∃ S' l, need N n S = some S' ∧ Inv N S' T ∧ Grow N S S' ∧ Known N S' n ∧ S'.lits[n]? = some l := by
  unfold need
  split
  · rename_i hs
    have hk := (skip_iff h.wf).1 hs
    obtain ⟨l, hl⟩ := hk.get h
    exact ⟨S, l, rfl, h, Grow.refl N S, hk, hl⟩
  · rename_i hs
    obtain ⟨S', e, i, g, k, _⟩ := construct_spec N.size n S hn hn (fun hk => hs ((skip_iff h.wf).2 hk)) h
    obtain ⟨l, hl⟩ := k.get i
    exact ⟨S', l, e, i, g, k, hl⟩

theorem need_known {N : Aig} {S : State} (h : WF N) {n : Nat} (hn : Known N S n) : need N n S = some S := by
  unfold need; rw [if_pos ((skip_iff h).2 hn)]

/-- the primary inputs of a valuation -/
def pattern (N : Aig) (v : Nat → Bool) : List Bool := (N.inputs.take N.numPis).map v

theorem pattern_length {N : Aig} (h : N.numPis ≤ N.inputs.length) (v : Nat → Bool) : (pattern N v).length = N.numPis := by simp [pattern, h]

theorem AgreeAll.pattern {N : Aig} {S : State} {T : List Tmp} (h : Inv N S T) {s v : Nat → Bool} (ha : AgreeAll N S T s v) :
    (List.range N.numPis).map (fun i => s (i + 1)) = pattern N v := by
  apply List.ext_getElem?
  intro i
  unfold Validator.pattern
  rw [List.getElem?_map, List.getElem?_map]
  by_cases hi : i < N.numPis
  · obtain ⟨n, hn⟩ : ∃ n, N.inputs[i]? = some n := ⟨_, List.getElem?_eq_getElem (lt_of_lt_of_le hi h.piLen)⟩
    rw [List.getElem?_range hi, List.getElem?_take_of_lt hi, hn]
    simp only [Option.map_some, Option.some.injEq]
    have := ha.1 n (Or.inr (Or.inl ⟨i, hi, hn⟩)) _ (h.pis i n hi hn)
    rw [litTrue_two] at this
    exact Bool.eq_iff_iff.2 this
  · rw [List.getElem?_eq_none (by simp; omega), List.getElem?_eq_none (by simp; omega)]; rfl

/-- the solver's answers "unsatisfiable" are right and its models are models -/
def Right (E : Env) : Prop := ∀ k cs as, match E.solve k cs as with
  | .sat a => Satisfies a cs ∧ ∀ l ∈ as, LitTrue a l
  | .unsat => ∀ a, Satisfies a cs → ¬ ∀ l ∈ as, LitTrue a l
  | .timeout => True

/-- what a call of the solver does -/
theorem solveWith_spec {E : Env} (hE : Right E) {N : Aig} {S : State} (hc : S.cex.length = N.numPis) (hv : N.numPis < S.nvars) (as : List Nat) :
    ∃ S' r, solveWith E N as S = some (S', r) ∧ S'.lits = S.lits ∧ S'.built = S.built ∧ S'.nvars = S.nvars ∧ S'.clauses = S.clauses ∧
      S'.cex.length = N.numPis ∧
      (r = some true → ∀ a, Satisfies a S.clauses → ¬ ∀ l ∈ as, LitTrue a l) ∧
      (r = some false → ∃ a, Satisfies a S.clauses ∧ (∀ l ∈ as, LitTrue a l) ∧ S'.cex = (List.range N.numPis).map fun i => a (i + 1)) := by
  have h := hE S.asks S.clauses as
  unfold solveWith
  dsimp only
  split
  · rename_i a e
    rw [e] at h
    rw [if_pos ⟨by omega, hv⟩]
    refine ⟨_, _, rfl, rfl, rfl, rfl, rfl, ?_, by simp, fun _ => ⟨a, h.1, h.2, ?_⟩⟩
    · simp [hc]
    · show _ ++ S.cex.drop N.numPis = _
      rw [List.drop_of_length_le (by omega), List.append_nil]
  · rename_i e
    rw [e] at h
    exact ⟨_, _, rfl, rfl, rfl, rfl, rfl, hc, fun _ => h, by simp⟩
  · exact ⟨_, _, rfl, rfl, rfl, rfl, rfl, hc, by simp, by simp⟩

/-- only what is compared matters -/
theorem Inv.congr {N : Aig} {S S' : State} {T T' : List Tmp} (h : Inv N S T) (hl : S'.lits = S.lits) (hb : S'.built = S.built) (hn : S'.nvars = S.nvars)
    (hc : S'.clauses = S.clauses) (hx : S'.cex.length = N.numPis) (hT : ∀ t ∈ T', t ∈ T) : Inv N S' T' := by
  obtain ⟨a, b, c, d, e, f, g⟩ := S
  obtain ⟨a', b', c', d', e', f', g'⟩ := S'
  dsimp only at hl hb hn hc hx
  subst hl hb hn hc
  refine ⟨h.wf, h.piLen, h.len, h.zero, h.pis, h.nodes, h.lit, h.nvars, h.bound, fun t ht => h.tmp t (hT t ht), ?_, ?_, hx⟩
  · intro s v hs hv hi
    have := h.sound s v hs hv hi
    exact ⟨this.1, fun t ht => this.2 t (hT t ht)⟩
  · intro v hv
    obtain ⟨s, hs, ha⟩ := h.complete v hv
    exact ⟨s, hs, ha.1, fun t ht => ha.2 t (hT t ht)⟩

/-- the verdict on two functions of the nodes: right, and if they differ the counterexample tells them apart -/
def Verdict (N : Aig) (f g : (Nat → Bool) → Bool) (cex : List Bool) (r : Option Bool) : Prop :=
  (r = some true → ∀ v, N.Models v → f v = g v) ∧ (r = some false → ∃ v, N.Models v ∧ pattern N v = cex ∧ f v ≠ g v)

theorem validateLit_spec {E : Env} (hE : Right E) {N : Aig} {S : State} {T : List Tmp} (h : Inv N S T) {root : Nat} (hr : root < N.nodes.length)
    {t : Tmp} (ht : t ∈ T) : ∃ S' r, validateLit E N root t.1 S = some (S', r) ∧ Inv N S' [] ∧ Verdict N (fun v => v root) t.2 S'.cex r ∧
      (Known N S root → S'.lits = S.lits ∧ S'.built = S.built) := by
  obtain ⟨S1, l, e1, i1, g1, k1, hl⟩ := need_spec h hr
  unfold validateLit
  rw [e1]
  dsimp only
  rw [hl]
  dsimp only
  have hlb := i1.lit root l k1 hl
  have htb := i1.tmp t ht
  have i2 : Inv N { S1 with nvars := S1.nvars + 1, clauses := S1.clauses ++ [[l, t.1, 2 * S1.nvars], [litNot l, litNot t.1, 2 * S1.nvars]] } T := by
    refine i1.fresh _ (fun _ => true) ?_ ?_ fun t ht => Or.inl ht
    · intro c hc m hm
      simp only [List.mem_cons, List.not_mem_nil, or_false] at hc
      rcases hc with rfl | rfl <;> simp only [List.mem_cons, List.not_mem_nil, or_false] at hm <;>
          rcases hm with rfl | rfl | rfl <;> (try simp only [litNot_div]) <;> omega
    · intro s v _ _ hs c hc
      refine ⟨2 * S1.nvars, ?_, (litTrue_two _ _).2 hs⟩
      simp only [List.mem_cons, List.not_mem_nil, or_false] at hc
      rcases hc with rfl | rfl <;> simp
  obtain ⟨S3, r, e3, a1, a2, a3, a4, a5, a6, a7⟩ := solveWith_spec hE i2.cex i2.nvars [litNot (2 * S1.nvars)]
  rw [e3]
  refine ⟨S3, r, rfl, i2.congr a1 a2 a3 a4 a5 (fun _ h => by cases h), ⟨fun hr v hv => ?_, fun hr => ?_⟩, fun hk => ?_⟩
  · by_contra hne
    obtain ⟨s, hs, ha⟩ := i1.complete v hv
    refine a6 hr (upd s S1.nvars false) ?_ ?_
    · refine (satisfies_append _ _ _).2 ⟨satisfies_congr (fun c hc' l hl => upd_lt (i1.bound c hc' l hl)) hs, ?_⟩
      have ha' := ha.upd i1 false
      have q1 := ha'.1 root k1 l hl
      have q2 := ha'.2 t ht
      intro c hc
      simp only [List.mem_cons, List.not_mem_nil, or_false] at hc
      rcases hc with rfl | rfl
      · by_cases hx : v root = true
        · exact ⟨l, by simp, q1.2 hx⟩
        · refine ⟨t.1, by simp, q2.2 ?_⟩
          revert hne; simp only [Bool.not_eq_true] at hx; simp only [hx]; cases t.2 v <;> simp
      · by_cases hx : v root = true
        · refine ⟨litNot t.1, by simp, (litTrue_not _ _).2 fun hh => ?_⟩
          exact hne (hx.trans (q2.1 hh).symm)
        · exact ⟨litNot l, by simp, (litTrue_not _ _).2 fun hh => hx (q1.1 hh)⟩
    · intro m hm
      rw [List.mem_singleton.1 hm, litTrue_not, litTrue_two, upd_same]
      simp
  · obtain ⟨a, ha1, ha2, ha3⟩ := a7 hr
    obtain ⟨v, hv, hag⟩ := i2.model ha1
    refine ⟨v, hv, by rw [ha3, hag.pattern i2], fun heq => ?_⟩
    have q1 := hag.1 root k1 l hl
    have q2 := hag.2 t ht
    have q3 := ha2 _ List.mem_cons_self
    rw [litTrue_not] at q3
    obtain ⟨c1, c2⟩ := (satisfies_append _ _ _).1 ha1
    obtain ⟨m1, hm1, ht1⟩ := c2 [l, t.1, 2 * S1.nvars] (by simp)
    obtain ⟨m2, hm2, ht2⟩ := c2 [litNot l, litNot t.1, 2 * S1.nvars] (by simp)
    simp only [List.mem_cons, List.not_mem_nil, or_false] at hm1 hm2
    have heq : v root = t.2 v := heq
    rw [heq] at q1
    rcases hm1 with rfl | rfl | rfl
    · rcases hm2 with rfl | rfl | rfl
      · exact (litTrue_not _ _).1 ht2 ht1
      · exact (litTrue_not _ _).1 ht2 (q2.2 (q1.1 ht1))
      · exact q3 ht2
    · rcases hm2 with rfl | rfl | rfl
      · exact (litTrue_not _ _).1 ht2 (q1.2 (q2.1 ht1))
      · exact (litTrue_not _ _).1 ht2 ht1
      · exact q3 ht2
    · exact q3 ht1
  · rw [need_known h.wf hk] at e1
    obtain rfl := Option.some.inj e1
    exact ⟨a1, a2⟩

theorem restart_raw {N : Aig} {S : State} (hwf : WF N) (hpl : N.numPis ≤ N.inputs.length) (hlen : S.lits.length = N.nodes.length) (hzero : S.lits[0]? = some 0)
    (hpis : ∀ i n : Nat, i < N.numPis → N.inputs[i]? = some n → S.lits[n]? = some (2 * (i + 1))) (hcex : S.cex.length = N.numPis) :
    ∃ S', restart N S = some S' ∧ Inv N S' [] ∧ S'.cex = S.cex := by
  unfold restart
  rw [hzero]
  have hk : ∀ n, Known N { S with invokes := 0, built := [], nvars := N.numPis + 1, clauses := [[litNot 0]] } n → n = 0 ∨ ∃ i, i < N.numPis ∧ N.inputs[i]? = some n := by
    rintro n (h | h | h)
    · exact Or.inl h
    · exact Or.inr h
    · cases h
  refine ⟨_, rfl, ⟨hwf, hpl, hlen, hzero, hpis, fun n hn => (by cases hn), ?_, Nat.lt_succ_self _, ?_, fun t ht => (by cases ht), ?_, ?_, hcex⟩, rfl⟩
  · intro n l hn hl
    rcases hk n hn with rfl | ⟨i, hi, hn⟩
    · have hl : S.lits[0]? = some l := hl
      rw [hzero] at hl
      obtain rfl := Option.some.inj hl
      show 0 / 2 < N.numPis + 1
      omega
    · have hl : S.lits[n]? = some l := hl
      rw [hpis i n hi hn] at hl
      obtain rfl := Option.some.inj hl
      show 2 * (i + 1) / 2 < N.numPis + 1
      omega
  · intro c hc l hl
    rw [List.mem_singleton.1 hc] at hl
    rw [List.mem_singleton.1 hl, litNot_div]
    show 0 / 2 < N.numPis + 1
    omega
  · intro s v hs hv hi
    refine ⟨fun n hn l hl => ?_, fun t ht => by cases ht⟩
    rcases hk n hn with rfl | ⟨i, hi', hn'⟩
    · have hl : S.lits[0]? = some l := hl
      rw [hzero] at hl
      obtain rfl := Option.some.inj hl
      obtain ⟨m, hm, ht⟩ := hs _ List.mem_cons_self
      rw [List.mem_singleton.1 hm, litTrue_not] at ht
      rw [hv.const]
      exact ⟨fun h => absurd h ht, fun h => by cases h⟩
    · exact hi n (List.mem_of_getElem? hn') hn l hl
  · intro v hv
    refine ⟨fun k => match k with | 0 => false | i + 1 => match N.inputs[i]? with | some n => v n | none => false, ?_, fun n hn l hl => ?_, fun t ht => by cases ht⟩
    · intro c hc
      rw [List.mem_singleton.1 hc]
      exact ⟨_, List.mem_cons_self, by rw [litTrue_not]; exact fun h => by simp [LitTrue] at h⟩
    · rcases hk n hn with rfl | ⟨i, hi', hn'⟩
      · have hl : S.lits[0]? = some l := hl
        rw [hzero] at hl
        obtain rfl := Option.some.inj hl
        rw [hv.const]
        simp [LitTrue]
      · have hl : S.lits[n]? = some l := hl
        rw [hpis i n hi' hn'] at hl
        obtain rfl := Option.some.inj hl
        rw [litTrue_two]
        simp [hn']

theorem restart_spec {N : Aig} {S : State} {T : List Tmp} (h : Inv N S T) : ∃ S', restart N S = some S' ∧ Inv N S' [] ∧ S'.cex = S.cex :=
  restart_raw h.wf h.piLen h.len h.zero h.pis h.cex

theorem finish_spec {α : Type} {E : Env} {N : Aig} {S : State} {T : List Tmp} (h : Inv N S T) (r : α) :
    ∃ S', finish E N (some (S, r)) = some (S', r) ∧ Inv N S' [] ∧ S'.cex = S.cex := by
  unfold finish
  dsimp only
  split
  · obtain ⟨S', e, i, c⟩ := restart_spec h
    rw [e]
    exact ⟨S', rfl, i, c⟩
  · exact ⟨S, rfl, h.congr rfl rfl rfl rfl h.cex (fun _ h => by cases h), rfl⟩

/-- a known node as a temporary -/
theorem Inv.withNode {N : Aig} {S : State} {T : List Tmp} (h : Inv N S T) {n l : Nat} (hk : Known N S n) (hl : S.lits[n]? = some l) (c : Bool) :
    Inv N S ((litNotCond l c, fun v => Bool.xor c (v n)) :: T) := by
  refine ⟨h.wf, h.piLen, h.len, h.zero, h.pis, h.nodes, h.lit, h.nvars, h.bound, ?_, ?_, ?_, h.cex⟩
  · intro t ht
    rcases List.mem_cons.1 ht with rfl | ht
    · dsimp only; rw [litNotCond_div]; exact h.lit n l hk hl
    · exact h.tmp t ht
  · intro s v hs hv hi
    have := h.sound s v hs hv hi
    refine ⟨this.1, fun t ht => ?_⟩
    rcases List.mem_cons.1 ht with rfl | ht
    · dsimp only
      rw [litTrue_cond, this.1 n hk l hl]
      cases c <;> cases v n <;> simp
    · exact this.2 t ht
  · intro v hv
    obtain ⟨s, hs, ha⟩ := h.complete v hv
    refine ⟨s, hs, ha.1, fun t ht => ?_⟩
    rcases List.mem_cons.1 ht with rfl | ht
    · dsimp only
      rw [litTrue_cond, ha.1 n hk l hl]
      cases c <;> cases v n <;> simp
    · exact ha.2 t ht

/-- the network has grown by gates and the list of literals with it -/
theorem Inv.grow {N N' : Aig} {S : State} (h : Inv N S []) {lits : List Nat} (hw : WF N') (hx : Aig.Ext N N') (hi : N'.inputs = N.inputs)
    (hp : N'.numPis = N.numPis) (hlen : lits.length = N'.nodes.length) (hold : ∀ n, n < N.nodes.length → lits[n]? = S.lits[n]?) :
    Inv N' { S with lits := lits } [] := by
  have hk : ∀ n, Known N' { S with lits := lits } n → Known N S n := fun n hn => by
    unfold Known at hn
    rw [hi, hp] at hn
    exact hn
  have hk' : ∀ n, Known N S n → Known N' { S with lits := lits } n := fun n hn => by
    unfold Known
    rw [hi, hp]
    exact hn
  have hag : ∀ s v n, Known N S n → (Agree s v lits n ↔ Agree s v S.lits n) := fun s v n hn => by
    unfold Agree
    rw [hold n (hn.lt h)]
  refine ⟨hw, by rw [hi, hp]; exact h.piLen, hlen, ?_, ?_, fun n hn => lt_of_lt_of_le (h.nodes n hn) hx.len, ?_, by rw [hp]; exact h.nvars, h.bound, h.tmp, ?_, ?_, by rw [hp]; exact h.cex⟩
  · show lits[0]? = _
    rw [hold 0 h.wf.pos]
    exact h.zero
  · intro i n hi' hn
    rw [hp] at hi'
    rw [hi] at hn
    show lits[n]? = _
    rw [hold n (Known.lt h (Or.inr (Or.inl ⟨i, hi', hn⟩)))]
    exact h.pis i n hi' hn
  · intro n l hn hl
    have hn := hk n hn
    have hl : lits[n]? = some l := hl
    rw [hold n (hn.lt h)] at hl
    exact h.lit n l hn hl
  · intro s v hs hv hin
    have := h.sound s v hs (hx.models hv) fun n hn hkn => (hag s v n hkn).1 (hin n (by rw [hi]; exact hn) (hk' n hkn))
    exact ⟨fun n hn => (hag s v n (hk n hn)).2 (this.1 n (hk n hn)), this.2⟩
  · intro v hv
    obtain ⟨s, hs, ha⟩ := h.complete v (hx.models hv)
    exact ⟨s, hs, fun n hn => (hag s v n (hk n hn)).2 (ha.1 n (hk n hn)), ha.2⟩

end Verif.Validator
