import Verif.Io.LutNetlist
import Verif.Io.VerilogProof
import Verif.Klut.Inv

set_option autoImplicit false

/-! # Helper lemmas about the LUT netlist writer -/

namespace Verif.Io
open Klut (IsLut Built)

theorem wrapped_inj {c : Char} {a b : Nat} (h : wrapped c a = wrapped c b) : a = b := by
  unfold wrapped at h
  have := List.append_cancel_right h
  injection this with _ this
  injection this with _ this
  exact dec_inj this

theorem wrapped_ne {c d : Char} (hcd : c ≠ d) (a b : Nat) : wrapped c a ≠ wrapped d b := by
  intro h
  injection h with _ h
  injection h with h _
  exact hcd h

theorem wrapped_ne_inst (c : Char) (a b : Nat) : wrapped c a ≠ instName b := by
  intro h
  injection h with h _
  exact absurd h (by decide)

theorem instName_inj {a b : Nat} (h : instName a = instName b) : a = b := by
  unfold instName at h
  simp only [List.cons.injEq, true_and] at h
  exact dec_inj h

theorem ident_wrapped (c : Char) (a : Nat) : ident (wrapped c a) = wrapped c a := ident_of_ne (by decide)

theorem readAtom_wrapped (c : Char) (a : Nat) : readAtom (wrapped c a) = .id (wrapped c a) := readAtom_plain (by decide) (by decide)

theorem wrapped_ne_nil (c : Char) (a : Nat) : wrapped c a ≠ [] := by simp [wrapped]

theorem toEscaped_ne_nil (name : Text) : toEscaped name ≠ [] := by
  unfold toEscaped
  split
  · rename_i h
    rintro rfl
    simp [isSimpleIdentifier] at h
  · simp

/-! ### Inputs of networks without registers -/

/-- the values of all nodes are kept and no input is added -/
structure SameInputs (N N' : Klut) : Prop where
  inputs : N'.inputs = N.inputs
  numPis : N'.numPis = N.numPis
  value : ∀ n, n < N.nodes.length → N'.isPi n = N.isPi n

theorem SameInputs.refl (N : Klut) : SameInputs N N := ⟨rfl, rfl, fun _ _ => rfl⟩

theorem sameInputs_createLit (N : Klut) (cs : List Nat) (lit : Nat) : SameInputs N (N.createLit cs lit).1 := by
  refine ⟨rfl, rfl, fun n hn => ?_⟩
  unfold Klut.isPi
  rw [Klut.createLit_get_lt N cs lit n hn, List.getElem?_eq_getElem hn]
  rfl

/-- with as many PIs as inputs, every input is a PI -/
theorem isPi_of_numPis {N : Klut} (hN : Built N) :
    N.numPis ≤ N.inputs.length ∧ (N.inputs.length = N.numPis → ∀ n ∈ N.inputs, N.isPi n = true) := by
  have same : ∀ {N N' : Klut}, Built N → SameInputs N N' →
      (N.numPis ≤ N.inputs.length ∧ (N.inputs.length = N.numPis → ∀ n ∈ N.inputs, N.isPi n = true)) →
      N'.numPis ≤ N'.inputs.length ∧ (N'.inputs.length = N'.numPis → ∀ n ∈ N'.inputs, N'.isPi n = true) := by
    intro N N' hN hs ih
    rw [hs.inputs, hs.numPis]
    refine ⟨ih.1, fun he n hn => ?_⟩
    rw [hs.value n (hN.wf.inputs n hn).2]
    exact ih.2 he n hn
  have outs : ∀ (N : Klut) (f : Nat) (n : Nat), (match (Klut.incFo N.nodes f)[n]? with
      | some nd => nd.value == 1#32
      | none => false) = N.isPi n := by
    intro N f n
    unfold Klut.isPi
    rw [Klut.incFo_get]
    cases N.nodes[n]? <;> rfl
  induction hN with
  | empty => exact ⟨by decide, fun _ n hn => by simp [Klut.empty] at hn⟩
  | @pi N hN ih =>
    refine ⟨by simp only [Klut.createPi, List.length_append, List.length_singleton]; omega, ?_⟩
    intro he n hn
    simp only [Klut.createPi, List.length_append, List.length_singleton, Nat.add_right_cancel_iff] at he
    simp only [Klut.createPi, List.mem_append, List.mem_singleton] at hn
    unfold Klut.isPi
    rcases hn with hn | rfl
    · have := ih.2 he n hn
      unfold Klut.isPi at this
      rw [show (N.createPi.1).nodes[n]? = N.nodes[n]? from List.getElem?_append_left (hN.wf.inputs n hn).2]
      exact this
    · rw [show (N.createPi.1).nodes[N.nodes.length]? = some { children := [], fn := 2, value := 1#32 } from List.getElem?_concat_length ..]
      rfl
  | @ro N hN ih =>
    refine ⟨by simp only [Klut.createRo, List.length_append, List.length_singleton]; omega, ?_⟩
    intro he
    simp only [Klut.createRo, List.length_append, List.length_singleton] at he
    omega
  | @po N f hN _ ih => exact same hN ⟨rfl, rfl, fun n _ => outs N f n⟩ ih
  | @ri N f r hN _ ih => exact same hN ⟨rfl, rfl, fun n _ => outs N f n⟩ ih
  | @node N cs f hN _ _ _ ih =>
    unfold Klut.createNode
    split
    · exact ih
    · have hs := sameInputs_createLit { N with cache := (N.cache.insert f).1 } cs (N.cache.insert f).2
      exact same hN ⟨hs.inputs, hs.numPis, hs.value⟩ ih
  | not hN _ ih => exact same hN (sameInputs_createLit _ _ _) ih
  | and hN _ _ ih => exact same hN (sameInputs_createLit _ _ _) ih
  | or hN _ _ ih => exact same hN (sameInputs_createLit _ _ _) ih
  | lt hN _ _ ih => exact same hN (sameInputs_createLit _ _ _) ih
  | le hN _ _ ih => exact same hN (sameInputs_createLit _ _ _) ih
  | xor hN _ _ ih => exact same hN (sameInputs_createLit _ _ _) ih
  | maj hN _ _ _ ih => exact same hN (sameInputs_createLit _ _ _) ih
  | ite hN _ _ _ ih => exact same hN (sameInputs_createLit _ _ _) ih
  | xor3 hN _ _ _ ih => exact same hN (sameInputs_createLit _ _ _) ih

theorem isPi_mem {N : Klut} (hN : Built N) {n : Nat} (h : N.isPi n = true) : n ∈ N.inputs := by
  unfold Klut.isPi at h
  split at h
  · rename_i nd hnd
    exact (hN.wf.flags n nd hnd).1 (Or.inl (by simpa using h))
  · cases h

theorem isCi_mem {N : Klut} (hN : Built N) {n : Nat} (h : N.isCi n = true) : n ∈ N.inputs := by
  unfold Klut.isCi at h
  split at h
  · rename_i nd hnd
    exact (hN.wf.flags n nd hnd).1 (by simpa using h)
  · cases h

/-! ### The loops -/

theorem piMap_spec (xs : List Text) : ∀ (l : List Nat) (i : Nat) (m : Nat → Option Text), i + l.length ≤ xs.length → l.Nodup →
    ∃ m', piMap xs i l m = some m' ∧ (∀ (k : Nat) n, l[k]? = some n → m' n = xs[i + k]?) ∧ ∀ n, n ∉ l → m' n = m n := by
  intro l
  induction l with
  | nil => intro i m _ _; exact ⟨m, rfl, fun k n h => by simp at h, fun _ _ => rfl⟩
  | cons a l ih =>
    intro i m hi hd
    rw [List.nodup_cons] at hd
    rw [List.length_cons] at hi
    have hx : xs[i]? = some xs[i] := List.getElem?_eq_getElem (by omega)
    obtain ⟨m', e, h1, h2⟩ := ih (i + 1) (fun k => if k = a then some xs[i] else m k) (by omega) hd.2
    refine ⟨m', by rw [piMap, hx]; exact e, ?_, ?_⟩
    · intro k n hk
      cases k with
      | zero =>
        simp only [List.getElem?_cons_zero, Option.some.injEq] at hk
        subst hk
        rw [h2 a hd.1, Nat.add_zero, hx]
        simp
      | succ k =>
        rw [List.getElem?_cons_succ] at hk
        have := h1 k n hk
        rwa [show i + 1 + k = i + (k + 1) by omega] at this
    · intro n hn
      rw [h2 n (fun h => hn (by simp [h]))]
      have : n ≠ a := fun h => hn (by simp [h])
      simp [this]

/-- the nodes that get a wire -/
def isWire (N : Klut) (n : Nat) : Bool := decide (2 ≤ n) && !N.inputs.contains n

theorem isWire_iff {N : Klut} {n : Nat} : isWire N n = true ↔ 2 ≤ n ∧ n ∉ N.inputs := by
  simp [isWire]

/-- text of a node that is not constant -/
def textOf (N : Klut) (xs : List Text) (n : Nat) : Text :=
  if n ∈ N.inputs then (xs[N.inputs.idxOf n]?).getD [] else wrapped 'w' n

/-- the instance written for a LUT -/
def instOf (N : Klut) (xs : List Text) (k n : Nat) (cs : List Nat) (f : TT) : LutInst :=
  ⟨instName k, 2 ^ cs.length, toHex f, cs.map (textOf N xs), wrapped 'w' n⟩

theorem writeLuts_spec {N : Klut} (hN : Built N) (hpi : N.inputs.length = N.numPis) (xs : List Text) (hx : xs.length = N.inputs.length)
    (hcf : ∀ n cs f, N.IsLut n cs f → ∀ c ∈ cs, 2 ≤ c) (m : Nat → Option Text)
    (hm1 : ∀ (k : Nat) n, N.inputs[k]? = some n → m n = xs[k]?) :
    ∀ (l pre : List Nat) (k : Nat), List.range N.nodes.length = pre ++ l →
    ∃ r, writeLuts N m l (pre.filter (isWire N)) k = some (r, (List.range N.nodes.length).filter (isWire N)) ∧
      (∀ i ∈ r, ∃ k n cs f, N.IsLut n cs f ∧ i = instOf N xs k n cs f) ∧
      (∀ n cs f, n ∈ l → N.IsLut n cs f → ∃ k, instOf N xs k n cs f ∈ r) ∧
      r.map (·.name) = (List.range' k r.length).map instName := by
  intro l
  induction l with
  | nil =>
    intro pre k hp
    rw [List.append_nil] at hp
    exact ⟨[], by rw [hp, writeLuts], by simp, by simp, by simp⟩
  | cons n l ih =>
    intro pre k hp
    have hp' : List.range N.nodes.length = (pre ++ [n]) ++ l := by simpa using hp
    have hnl : n < N.nodes.length := List.mem_range.1 (by rw [hp]; simp)
    have hall := isPi_of_numPis hN
    by_cases hskip : Klut.isConstant n = true ∨ N.isPi n = true
    · have hnw : isWire N n = false := by
        rcases hskip with h | h
        · simp only [Klut.isConstant, decide_eq_true_eq] at h
          simp only [isWire, Bool.and_eq_false_imp, decide_eq_true_eq]
          intro h'
          omega
        · have := isPi_mem hN h
          simp [isWire, this]
      obtain ⟨r, e, h1, h2, h3⟩ := ih (pre ++ [n]) k hp'
      rw [List.filter_append, List.filter_cons_of_neg (by simp [hnw]), List.filter_nil, List.append_nil] at e
      refine ⟨r, by rw [writeLuts, if_pos hskip]; exact e, h1, ?_, h3⟩
      intro n' cs f hn' hl
      rcases List.mem_cons.1 hn' with h | h
      · subst h
        have : isWire N n' = true := isWire_iff.2 ⟨hl.1, hl.2.1⟩
        rw [hnw] at this
        cases this
      · exact h2 n' cs f h hl
    · rw [not_or] at hskip
      obtain ⟨hc, hp1⟩ := hskip
      have h2n : 2 ≤ n := by
        simp only [Klut.isConstant, decide_eq_true_eq] at hc
        omega
      have hni : n ∉ N.inputs := fun h => hp1 (hall.2 hpi n h)
      have hw : isWire N n = true := isWire_iff.2 ⟨h2n, hni⟩
      have hnd : N.nodes[n]? = some N.nodes[n] := List.getElem?_eq_getElem hnl
      obtain ⟨_, _, f, hf, _, _⟩ := hN.wf.gate n _ hnd h2n hni
      have hlut : N.IsLut n (N.nodes[n]).children f := ⟨h2n, hni, _, hnd, rfl, hf⟩
      have hfun : N.nodeFunction n = some f := by
        unfold Klut.nodeFunction
        rw [hnd]
        exact hf
      have hfan : N.fanins n = some (N.nodes[n]).children := by
        unfold Klut.fanins
        rw [if_neg (by
          rw [not_or]
          exact ⟨by omega, fun h => hni (isCi_mem hN h)⟩), hnd]
        rfl
      obtain ⟨r, e, h1, h2, h3⟩ := ih (pre ++ [n]) (k + 1) hp'
      rw [List.filter_append, List.filter_cons_of_pos hw, List.filter_nil] at e
      have hpin : (N.nodes[n]).children.map (pinText (pre.filter (isWire N) ++ [n]) m) = (N.nodes[n]).children.map (textOf N xs) := by
        apply List.map_congr_left
        intro c hcm
        have hc2 := hcf _ _ _ hlut c hcm
        have hcn := (hN.wf.lut hlut).2.2.1 c hcm
        unfold pinText textOf
        by_cases hci : c ∈ N.inputs
        · rw [if_neg (by
            simp only [List.contains_iff_mem, List.mem_append, List.mem_filter, isWire_iff, List.mem_singleton, not_or]
            exact ⟨fun h => h.2.2 hci, by omega⟩), if_pos hci]
          have hk := List.getElem?_idxOf hci
          rw [hm1 _ c hk]
          have hlt : N.inputs.idxOf c < xs.length := by rw [hx]; exact List.idxOf_lt_length_of_mem hci
          rw [List.getElem?_eq_getElem hlt]
          rfl
        · have hcpre : c ∈ pre := by
            have hmem : c ∈ List.range N.nodes.length := List.mem_range.2 (by omega)
            rw [hp] at hmem
            rcases List.mem_append.1 hmem with h | h
            · exact h
            · exfalso
              have hs : (List.range N.nodes.length).Pairwise (· < ·) := List.pairwise_lt_range
              rw [hp, List.pairwise_append, List.pairwise_cons] at hs
              rcases List.mem_cons.1 h with h | h
              · omega
              · have := hs.2.1.1 c h
                omega
          rw [if_pos (by
            simp only [List.contains_iff_mem, List.mem_append, List.mem_filter, isWire_iff]
            exact Or.inl ⟨hcpre, hc2, hci⟩), if_neg hci]
      refine ⟨instOf N xs k n (N.nodes[n]).children f :: r, ?_, ?_, ?_, ?_⟩
      · rw [writeLuts, if_neg (by rw [not_or]; exact ⟨hc, hp1⟩), hfun, hfan]
        dsimp only
        rw [e]
        dsimp only
        rw [hpin]
        rfl
      · intro i hi
        rcases List.mem_cons.1 hi with h | h
        · exact ⟨k, n, _, f, hlut, h⟩
        · exact h1 i h
      · intro n' cs f' hn' hl
        rcases List.mem_cons.1 hn' with h | h
        · subst h
          obtain ⟨rfl, rfl⟩ := hlut.unique hl
          exact ⟨k, by simp⟩
        · obtain ⟨k', hk'⟩ := h2 n' cs f' h hl
          exact ⟨k', by simp [hk']⟩
      · rw [List.map_cons, h3, List.length_cons, List.range'_succ, List.map_cons]
        rfl

/-- text of the value of an output -/
def outText (N : Klut) (xs : List Text) (s : Nat) : Text :=
  if s < 2 then "1'b".toList ++ dec s else textOf N xs s

theorem writeAssigns_spec {N : Klut} (hN : Built N) (hpi : N.inputs.length = N.numPis) (xs ys : List Text) (hx : xs.length = N.inputs.length)
    (m : Nat → Option Text) (hm1 : ∀ (k : Nat) n, N.inputs[k]? = some n → m n = xs[k]?) :
    ∀ (l : List Nat) (i : Nat), i + l.length ≤ ys.length →
    ∃ as, writeAssigns N ys m i l = some as ∧
      ∀ a, a ∈ as ↔ ∃ (j : Nat) (s : Nat) (t : Text), l[j]? = some s ∧ ys[i + j]? = some t ∧ a = (t, outText N xs s) := by
  intro l
  induction l with
  | nil => intro i _; exact ⟨[], rfl, by simp⟩
  | cons s l ih =>
    intro i hi
    rw [List.length_cons] at hi
    obtain ⟨as, e, h⟩ := ih (i + 1) (by omega)
    have hy : ys[i]? = some ys[i] := List.getElem?_eq_getElem (by omega)
    refine ⟨(ys[i], outText N xs s) :: as, ?_, ?_⟩
    · rw [writeAssigns, hy, e]
      dsimp only
      congr 3
      unfold outText textOf Klut.isConstant
      simp only [decide_eq_true_eq]
      by_cases h2 : s < 2
      · rw [if_pos (by omega), if_pos h2]
      · rw [if_neg (by omega), if_neg h2]
        by_cases hs : s ∈ N.inputs
        · rw [if_pos ((isPi_of_numPis hN).2 hpi s hs), if_pos hs]
          have hk := List.getElem?_idxOf hs
          rw [hm1 _ s hk]
          have hlt : N.inputs.idxOf s < xs.length := by rw [hx]; exact List.idxOf_lt_length_of_mem hs
          rw [List.getElem?_eq_getElem hlt]
          rfl
        · rw [if_neg (fun h => hs (isPi_mem hN h)), if_neg hs]
    · intro a
      rw [List.mem_cons, h]
      constructor
      · rintro (rfl | ⟨j, o', t, h1, h2, rfl⟩)
        · exact ⟨0, s, _, rfl, hy, rfl⟩
        · exact ⟨j + 1, o', t, h1, by rw [← h2]; congr 1; omega, rfl⟩
      · rintro ⟨j, o', t, h1, h2, rfl⟩
        cases j with
        | zero =>
          rw [List.getElem?_cons_zero] at h1
          cases h1
          rw [Nat.add_zero, hy] at h2
          cases h2
          exact Or.inl rfl
        | succ j =>
          rw [List.getElem?_cons_succ] at h1
          exact Or.inr ⟨j, o', t, h1, by rw [← h2]; congr 1; omega, rfl⟩

/-- what the netlist consists of -/
structure LutWritten (N : Klut) (xs ys : List Text) (M : LutModule) : Prop where
  header : M.header = Io.header xs ys
  inputs : M.inputs = xs
  outputs : M.outputs = ys
  wires : M.wires = ((List.range N.nodes.length).filter (isWire N)).map (wrapped 'w')
  luts : ∀ i ∈ M.luts, ∃ k n cs f, N.IsLut n cs f ∧ i = instOf N xs k n cs f
  lut : ∀ n cs f, N.IsLut n cs f → ∃ k, instOf N xs k n cs f ∈ M.luts
  names : M.luts.map (·.name) = (List.range M.luts.length).map instName
  assigns : ∀ a, a ∈ M.assigns ↔ ∃ (j : Nat) (s : Nat) (t : Text), N.outputs[j]? = some s ∧ ys[j]? = some t ∧ a = (t, outText N xs s)

theorem writeLut_spec {N : Klut} (hN : Built N) (hpi : N.inputs.length = N.numPis) (hpo : N.outputs.length = N.numPos)
    (hcf : ∀ n cs f, N.IsLut n cs f → ∀ c ∈ cs, 2 ≤ c)
    (ps : Params) (hx : (lutInputTexts ps N).length = N.numPis) (hy : (lutOutputTexts ps N).length = N.numPos) :
    ∃ M, writeLut ps N = some M ∧ LutWritten N (lutInputTexts ps N) (lutOutputTexts ps N) M := by
  generalize hxs : lutInputTexts ps N = xs at *
  generalize hys : lutOutputTexts ps N = ys at *
  obtain ⟨m, e1, hm1, _⟩ := piMap_spec xs N.inputs 0 (fun _ => none) (by omega) hN.wf.inputsNodup
  simp only [Nat.zero_add] at hm1
  obtain ⟨r, e2, h1, h2, h3⟩ := writeLuts_spec hN hpi xs (by omega) hcf m hm1 (List.range N.nodes.length) [] 0 rfl
  obtain ⟨as, e3, h4⟩ := writeAssigns_spec hN hpi xs ys (by omega) m hm1 N.outputs 0 (by omega)
  simp only [Nat.zero_add] at h4
  refine ⟨⟨header xs ys, xs, ys, ((List.range N.nodes.length).filter (isWire N)).map (wrapped 'w'), r, as⟩, ?_,
    rfl, rfl, rfl, rfl, h1, ?_, by rw [h3, List.range_eq_range'], h4⟩
  · unfold writeLut
    rw [hxs, hys]
    dsimp only
    rw [List.take_of_length_le (by omega), e1]
    dsimp only
    rw [List.filter_nil] at e2
    rw [e2]
    dsimp only
    rw [List.take_of_length_le (by omega), e3]
  · intro n cs f hl
    exact h2 n cs f (List.mem_range.2 (hN.wf.lut hl).1) hl

/-! ### LUT instances -/

theorem bitsNat_pos (bs : List Bool) : bitsNat bs = TT.pos (fun j => bs.getD j false) bs.length := by
  apply Nat.eq_of_testBit_eq
  intro i
  rw [testBit_bitsNat]
  by_cases h : i < bs.length
  · rw [TT.testBit_pos _ _ _ h]
  · rw [Nat.testBit_lt_two_pow (Nat.lt_of_lt_of_le (TT.pos_lt _ _) (Nat.pow_le_pow_right (by decide) (by omega))),
      List.getD_eq_getElem?_getD, List.getElem?_eq_none (by omega)]
    rfl

/-- an instance with connected pins computes the function of the LUT -/
theorem instOf_holds {N : Klut} (hN : Built N) (xs : List Text) (k n : Nat) (cs : List Nat) (f : TT) (hl : N.IsLut n cs f)
    (v : Nat → Bool) (env : Text → Bool) (hne : ∀ c ∈ cs, textOf N xs c ≠ [])
    (hv : ∀ c ∈ cs, (readAtom (textOf N xs c)).val env = v c) :
    (instOf N xs k n cs f).Holds env ↔ env (wrapped 'w' n) = f.eval (Klut.args v cs) := by
  obtain ⟨_, _, _, hwf, hfn⟩ := hN.wf.lut hl
  have hread := readHex_toHex f hwf
  have hmod : bitsNat f.bits % 2 ^ 2 ^ cs.length = bitsNat f.bits := by
    apply Nat.mod_eq_of_lt
    have := bitsNat_lt f.bits
    unfold TT.WF at hwf
    rwa [hwf, hfn] at this
  have heval : ∀ bs : List Bool, bs = cs.map v → (bitsNat f.bits % 2 ^ 2 ^ cs.length).testBit (bitsNat bs) = f.eval (Klut.args v cs) := by
    rintro bs rfl
    rw [hmod, testBit_bitsNat, bitsNat_pos]
    unfold TT.eval TT.get
    rw [List.length_map, hfn]
    congr 1
    apply TT.pos_congr
    intro j hj
    unfold Klut.args
    rw [List.getElem?_eq_getElem hj]
    simp [hj]
  constructor
  · rintro ⟨w, bs, t, h1, h2, h3, h4, h5, h6⟩
    dsimp only [instOf] at h1 h2 h3 h4 h5 h6
    rw [hread] at h1
    cases h1
    rw [readAtom_wrapped] at h5
    cases h5
    rw [h6]
    apply heval
    apply List.ext_getElem
    · rw [h3, List.length_map, List.length_map]
    · intro j hj hj'
      rw [List.length_map] at hj'
      have hp : (cs.map (textOf N xs))[j]? = some (textOf N xs cs[j]) := by
        rw [List.getElem?_map, List.getElem?_eq_getElem hj']
        rfl
      have := h4 j _ _ hp (List.getElem?_eq_getElem hj) (hne _ (List.getElem_mem hj'))
      rw [← this, hv _ (List.getElem_mem hj'), List.getElem_map]
  · intro h
    refine ⟨bitsNat f.bits, cs.map v, wrapped 'w' n, hread, by simp [instOf], by simp [instOf], ?_, readAtom_wrapped _ _, ?_⟩
    · intro j p b hp hb _
      dsimp only [instOf] at hp
      rw [List.getElem?_map] at hp hb
      cases hj : cs[j]? with
      | none => rw [hj] at hp; simp at hp
      | some c =>
        rw [hj] at hp hb
        cases hp
        cases hb
        exact hv c (List.mem_of_getElem? hj)
    · rw [h]
      exact (heval _ rfl).symm

end Verif.Io
