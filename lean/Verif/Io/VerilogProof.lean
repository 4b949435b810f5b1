import Verif.Io.Verilog
import Verif.Props.C15
import Verif.Props.C14
import Verif.Balance.Proof

set_option autoImplicit false

/-! # Helper lemmas about the Verilog writer -/

namespace Verif.Io
open Aig (IsGate Built WF)
open RefDeref (aigKids)
open Topo (Tfi FaninsFirst)

theorem numbered_inj {c : Char} {a b : Nat} (h : numbered c a = numbered c b) : a = b := by
  injection h with _ h
  exact dec_inj h

theorem numbered_ne {c d : Char} (hcd : c ≠ d) (a b : Nat) : numbered c a ≠ numbered d b := by
  intro h
  injection h with h _
  exact hcd h

theorem ident_numbered {c : Char} (h : c ≠ '\\') (a : Nat) : ident (numbered c a) = numbered c a := ident_of_ne h

theorem readAtom_numbered {c : Char} (h1 : c ≠ '1') (h2 : c ≠ '\\') (a : Nat) : readAtom (numbered c a) = .id (numbered c a) :=
  readAtom_plain h1 h2

/-- the final text of every node -/
def nameOf (N : Aig) (xs : List Text) (n : Nat) : Text :=
  if n = 0 then "1'b0".toList
  else if n ∈ N.inputs then (xs[N.inputs.idxOf n]?).getD []
  else numbered 'n' n

theorem nameInputs_spec (xs : List Text) : ∀ (l : List Nat) (i : Nat) (m : NodeNames), i + l.length ≤ xs.length → l.Nodup →
    ∃ m', nameInputs xs i l m = some m' ∧ (∀ (k : Nat) n, l[k]? = some n → xs[i + k]? = some (m' n)) ∧ ∀ n, n ∉ l → m' n = m n := by
  intro l
  induction l with
  | nil => intro i m _ _; exact ⟨m, rfl, fun k n h => by simp at h, fun _ _ => rfl⟩
  | cons a l ih =>
    intro i m hi hd
    rw [List.nodup_cons] at hd
    rw [List.length_cons] at hi
    have hx : xs[i]? = some xs[i] := List.getElem?_eq_getElem (by omega)
    obtain ⟨m', e, h1, h2⟩ := ih (i + 1) (m.set a xs[i]) (by omega) hd.2
    refine ⟨m', by rw [nameInputs, hx]; exact e, ?_, ?_⟩
    · intro k n hk
      cases k with
      | zero =>
        simp only [List.getElem?_cons_zero, Option.some.injEq] at hk
        subst hk
        rw [h2 a hd.1, Nat.add_zero, hx]
        simp [NodeNames.set]
      | succ k =>
        rw [List.getElem?_cons_succ] at hk
        have := h1 k n hk
        rwa [show i + 1 + k = i + (k + 1) by omega] at this
    · intro n hn
      rw [h2 n (fun h => hn (by simp [h]))]
      have : n ≠ a := fun h => hn (by simp [h])
      simp [NodeNames.set, this]

/-- the assignment written for a gate -/
def gateAssign (N : Aig) (xs : List Text) (n : Nat) (nd : Node) : Assign :=
  ⟨numbered 'n' n, [(nd.c0.compl, nameOf N xs nd.c0.index), (nd.c1.compl, nameOf N xs nd.c1.index)]⟩

theorem isPi_iff {N : Aig} (h : WF N) (hpi : N.inputs.length = N.numPis) {n : Nat} (h0 : n ≠ 0) :
    N.isPi n = true ↔ n ∈ N.inputs := by
  constructor
  · intro hp
    apply h.ci_input h0
    unfold Aig.isPi at hp
    unfold Aig.isCi
    split at hp
    · rename_i nd hnd
      simp only [Bool.and_eq_true] at hp
      exact hp.1
    · cases hp
  · exact Balance.isPi_of_input h hpi

theorem writeGates_spec {N : Aig} (hN : Built N) (hpi : N.inputs.length = N.numPis) (xs : List Text) : ∀ (l pre : List Nat) (m : NodeNames),
    FaninsFirst (aigKids N) (pre ++ l) → (∀ n ∈ pre ++ l, n < N.nodes.length) → (pre ++ l).Nodup → 
    (∀ n, (n = 0 ∨ n ∈ N.inputs ∨ n ∈ pre) → m n = nameOf N xs n) →
    ∃ as m', writeGates N l m = some (as, m') ∧ (∀ n, (n = 0 ∨ n ∈ N.inputs ∨ n ∈ pre ++ l) → m' n = nameOf N xs n) ∧
      (∀ a ∈ as, ∃ n nd, n ∈ l ∧ n ≠ 0 ∧ n ∉ N.inputs ∧ N.nodes[n]? = some nd ∧ a = gateAssign N xs n nd) ∧
      ∀ n nd, n ∈ l → n ≠ 0 → n ∉ N.inputs → N.nodes[n]? = some nd → gateAssign N xs n nd ∈ as := by
  intro l
  induction l with
  | nil =>
    intro pre m _ _ _ hm
    exact ⟨[], m, rfl, by simpa using hm, by simp, by simp⟩
  | cons n l ih =>
    intro pre m hff hlt hd hm
    have hff' : FaninsFirst (aigKids N) ((pre ++ [n]) ++ l) := by simpa using hff
    have hlt' : ∀ k ∈ (pre ++ [n]) ++ l, k < N.nodes.length := by simpa using hlt
    have hd' : ((pre ++ [n]) ++ l).Nodup := by simpa using hd
    by_cases hskip : n = 0 ∨ N.isPi n = true
    · have hin : n = 0 ∨ n ∈ N.inputs := by
        rcases hskip with h | h
        · exact Or.inl h
        · by_cases h0 : n = 0
          · exact Or.inl h0
          · exact Or.inr ((isPi_iff hN.wf hpi h0).1 h)
      obtain ⟨as, m', e, h1, h2, h3⟩ := ih (pre ++ [n]) m hff' hlt' hd' (by
        intro k hk
        apply hm
        rcases hk with h | h | h
        · exact Or.inl h
        · exact Or.inr (Or.inl h)
        · rcases List.mem_append.1 h with h | h
          · exact Or.inr (Or.inr h)
          · simp only [List.mem_singleton] at h
            subst h
            rcases hin with h | h
            · exact Or.inl h
            · exact Or.inr (Or.inl h))
      refine ⟨as, m', by rw [writeGates, if_pos hskip]; exact e, by simpa using h1, ?_, ?_⟩
      · intro a ha
        obtain ⟨k, nd, g1, g2, g3, g4, g5⟩ := h2 a ha
        exact ⟨k, nd, by simp [g1], g2, g3, g4, g5⟩
      · intro k nd hk h0 hi hnd
        rcases List.mem_cons.1 hk with h | h
        · subst h
          rcases hin with h | h
          · exact absurd h h0
          · exact absurd h hi
        · exact h3 k nd h h0 hi hnd
    · rw [not_or] at hskip
      obtain ⟨h0, hp⟩ := hskip
      have hi : n ∉ N.inputs := fun h => hp ((isPi_iff hN.wf hpi h0).2 h)
      have hci : N.isCi n = false := by
        cases h : N.isCi n with
        | false => rfl
        | true => exact absurd (hN.wf.ci_input h0 h) hi
      have hnl : n < N.nodes.length := hlt n (by simp)
      have hnd : N.nodes[n]? = some N.nodes[n] := List.getElem?_eq_getElem hnl
      have hk := hff pre n l rfl
      rw [Aig.aigKids_gate h0 hci hnd] at hk
      have hname : nameOf N xs n = numbered 'n' n := by rw [nameOf, if_neg h0, if_neg hi]
      have hset : ∀ k, (k = 0 ∨ k ∈ N.inputs ∨ k ∈ pre ++ [n]) → m.set n (numbered 'n' n) k = nameOf N xs k := by
        intro k hk
        unfold NodeNames.set
        split
        · rename_i hkn
          rw [hkn, hname]
        · rename_i hkn
          apply hm
          rcases hk with h | h | h
          · exact Or.inl h
          · exact Or.inr (Or.inl h)
          · rcases List.mem_append.1 h with h | h
            · exact Or.inr (Or.inr h)
            · simp only [List.mem_singleton] at h
              exact absurd h hkn
      obtain ⟨as, m', e, h1, h2, h3⟩ := ih (pre ++ [n]) (m.set n (numbered 'n' n)) hff' hlt' hd' hset
      have hga : (⟨m.set n (numbered 'n' n) n, [((N.nodes[n]).c0.compl, m.set n (numbered 'n' n) (N.nodes[n]).c0.index),
          ((N.nodes[n]).c1.compl, m.set n (numbered 'n' n) (N.nodes[n]).c1.index)]⟩ : Assign) = gateAssign N xs n N.nodes[n] := by
        unfold gateAssign
        rw [hset n (Or.inr (Or.inr (by simp))), hset _ (Or.inr (Or.inr (List.mem_append_left _ (hk _ (by simp))))),
          hset _ (Or.inr (Or.inr (List.mem_append_left _ (hk _ (by simp))))), hname]
      refine ⟨gateAssign N xs n N.nodes[n] :: as, m', ?_, by simpa using h1, ?_, ?_⟩
      · rw [writeGates, if_neg (by rw [not_or]; exact ⟨h0, hp⟩), if_neg (by simp [hci]), hnd]
        dsimp only
        rw [e, hga]
      · intro a ha
        rcases List.mem_cons.1 ha with h | h
        · exact ⟨n, N.nodes[n], by simp, h0, hi, hnd, h⟩
        · obtain ⟨k, nd, g1, g2, g3, g4, g5⟩ := h2 a h
          exact ⟨k, nd, by simp [g1], g2, g3, g4, g5⟩
      · intro k nd hkm hk0 hki hknd
        rcases List.mem_cons.1 hkm with h | h
        · subst h
          rw [hnd] at hknd
          cases hknd
          simp
        · exact List.mem_cons_of_mem _ (h3 k nd h hk0 hki hknd)

theorem writeOutputs_spec (ys : List Text) (m : NodeNames) : ∀ (l : List Sig) (i : Nat), i + l.length ≤ ys.length →
    ∃ as, writeOutputs ys m i l = some as ∧
      ∀ a, a ∈ as ↔ ∃ (j : Nat) (o : Sig) (t : Text), l[j]? = some o ∧ ys[i + j]? = some t ∧ a = ⟨t, [(o.compl, m o.index)]⟩ := by
  intro l
  induction l with
  | nil => intro i _; exact ⟨[], rfl, by simp⟩
  | cons o l ih =>
    intro i hi
    rw [List.length_cons] at hi
    obtain ⟨as, e, h⟩ := ih (i + 1) (by omega)
    have hy : ys[i]? = some ys[i] := List.getElem?_eq_getElem (by omega)
    refine ⟨⟨ys[i], [(o.compl, m o.index)]⟩ :: as, by rw [writeOutputs, hy, e], ?_⟩
    intro a
    rw [List.mem_cons, h]
    constructor
    · rintro (rfl | ⟨j, o', t, h1, h2, rfl⟩)
      · exact ⟨0, o, _, rfl, hy, rfl⟩
      · exact ⟨j + 1, o', t, h1, by rw [← h2]; congr 1; omega, rfl⟩
    · rintro ⟨j, o', t, h1, h2, rfl⟩
      cases j with
      | zero =>
        rw [List.getElem?_cons_zero] at h1
        cases h1
        rw [Nat.add_zero, hy] at h2
        cases h2
        exact Or.inl rfl
      | succ j =>
        rw [List.getElem?_cons_succ] at h1
        exact Or.inr ⟨j, o', t, h1, by rw [← h2]; congr 1; omega, rfl⟩

/-- what the written module consists of -/
structure Written (N : Aig) (xs ys : List Text) (M : VModule) : Prop where
  inputs : M.inputs = xs
  outputs : M.outputs = ys
  wires : M.wires = N.gates.map (numbered 'n')
  assigns : ∀ a ∈ M.assigns, (∃ n nd, n ≠ 0 ∧ n ∉ N.inputs ∧ N.nodes[n]? = some nd ∧ a = gateAssign N xs n nd) ∨
    ∃ (j : Nat) (o : Sig) (t : Text), N.outputs[j]? = some o ∧ ys[j]? = some t ∧ a = ⟨t, [(o.compl, nameOf N xs o.index)]⟩
  gate : ∀ o ∈ N.outputs, ∀ n nd, Tfi (aigKids N) o.index n → n ≠ 0 → n ∉ N.inputs → N.nodes[n]? = some nd →
    gateAssign N xs n nd ∈ M.assigns
  output : ∀ (j : Nat) o t, N.outputs[j]? = some o → ys[j]? = some t → (⟨t, [(o.compl, nameOf N xs o.index)]⟩ : Assign) ∈ M.assigns

theorem writeVerilog_spec {N : Aig} (hN : Built N) (hpi : N.inputs.length = N.numPis) (hpo : N.outputs.length = N.numPos)
    (ps : Params) (hx : (inputTexts ps N).length = N.numPis) (hy : (outputTexts ps N).length = N.numPos) (fuel : Nat)
    (hf : N.nodes.length ≤ fuel) :
    ∃ M, writeVerilog ps N fuel = some M ∧ Written N (inputTexts ps N) (outputTexts ps N) M := by
  generalize hxs : inputTexts ps N = xs at *
  generalize hys : outputTexts ps N = ys at *
  have hnodup := hN.wf.inputsNodup
  obtain ⟨m, e1, hm1, hm2⟩ := nameInputs_spec xs N.inputs 0 (NodeNames.set (fun _ => []) 0 "1'b0".toList) (by omega) hnodup
  have h0i : (0 : Nat) ∉ N.inputs := fun h => by
    obtain ⟨k, hk⟩ := List.getElem?_of_mem h
    have := hN.wf.input k 0 hk
    omega
  have hm : ∀ n, (n = 0 ∨ n ∈ N.inputs ∨ n ∈ ([] : List Nat)) → m n = nameOf N xs n := by
    intro n hn
    rcases hn with rfl | hn | hn
    · rw [hm2 0 h0i, nameOf, if_pos rfl]; rfl
    · have h0 : n ≠ 0 := fun h => h0i (h ▸ hn)
      have hidx := List.getElem?_idxOf hn
      have := hm1 _ n hidx
      rw [Nat.zero_add] at this
      rw [nameOf, if_neg h0, if_pos hn, this]
      rfl
    · simp at hn
  obtain ⟨order, rest, e2, ho, hd, hff, hmem⟩ := Topo.C15_topo N id (Topo.C15_built N hN) fuel (by
    intro o ho
    have := hN.wf.outputs o ho
    simp only [id]
    exact Nat.lt_of_lt_of_le this hf)
  have hlt : ∀ n ∈ order, n < N.nodes.length := by
    intro n hn
    rcases (hmem n).1 hn with rfl | h | ⟨o, ho, ht⟩
    · exact hN.wf.pos
    · obtain ⟨k, hk⟩ := List.getElem?_of_mem h
      obtain ⟨_, nd, hnd, _⟩ := hN.wf.input k n hk
      exact Aig.lt_of_getElem? hnd
    · exact Aig.Tfi_lt hN.wf ht (hN.wf.outputs o ho)
  obtain ⟨as, m', e3, hm', ha1, ha2⟩ := writeGates_spec hN hpi xs order [] m (by simpa using hff) (by simpa using hlt) (by simpa using hd) hm
  obtain ⟨pos, e4, hpos⟩ := writeOutputs_spec ys m' N.outputs 0 (by omega)
  have hname : ∀ o ∈ N.outputs, m' o.index = nameOf N xs o.index := by
    intro o ho
    apply hm'
    refine Or.inr (Or.inr ?_)
    rw [List.nil_append, hmem]
    exact Or.inr (Or.inr ⟨o, ho, .refl _⟩)
  refine ⟨⟨xs, ys, N.gates.map (numbered 'n'), as ++ pos⟩, ?_, rfl, rfl, rfl, ?_, ?_, ?_⟩
  · unfold writeVerilog
    rw [hxs, hys]
    dsimp only
    rw [List.take_of_length_le (by omega), e1]
    dsimp only
    rw [e2]
    dsimp only
    rw [e3]
    dsimp only
    rw [List.take_of_length_le (by omega), e4]
  · intro a ha
    rcases List.mem_append.1 ha with h | h
    · obtain ⟨n, nd, _, g1, g2, g3, g4⟩ := ha1 a h
      exact Or.inl ⟨n, nd, g1, g2, g3, g4⟩
    · obtain ⟨j, o, t, g1, g2, g3⟩ := (hpos a).1 h
      rw [Nat.zero_add] at g2
      rw [hname o (List.mem_of_getElem? g1)] at g3
      exact Or.inr ⟨j, o, t, g1, g2, g3⟩
  · intro o ho n nd ht h0 hi hnd
    apply List.mem_append_left
    exact ha2 n nd ((hmem n).2 (Or.inr (Or.inr ⟨o, ho, ht⟩))) h0 hi hnd
  · intro j o t h1 h2
    apply List.mem_append_right
    rw [hpos]
    exact ⟨j, o, t, h1, by rw [Nat.zero_add]; exact h2, by rw [hname o (List.mem_of_getElem? h1)]⟩

theorem lookup_zip : ∀ (D : List Text) (V : List Bool), D.Nodup → D.length = V.length → ∀ (k : Nat) d b, D[k]? = some d → V[k]? = some b →
    ((D.zip V).lookup d).getD false = b := by
  intro D
  induction D with
  | nil => intro V _ _ k d b h; simp at h
  | cons a D ih =>
    intro V hd hl k d b h1 h2
    cases V with
    | nil => simp at hl
    | cons v V =>
      rw [List.nodup_cons] at hd
      cases k with
      | zero =>
        rw [List.getElem?_cons_zero] at h1 h2
        cases h1; cases h2
        simp
      | succ k =>
        rw [List.getElem?_cons_succ] at h1 h2
        have hne : d ≠ a := fun h => hd.1 (h ▸ List.mem_of_getElem? h1)
        rw [List.zip_cons_cons, List.lookup_cons, beq_false_of_ne hne]
        exact ih V hd.2 (by simpa using hl) k d b h1 h2

end Verif.Io
