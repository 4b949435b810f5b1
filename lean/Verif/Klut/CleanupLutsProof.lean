import Verif.Klut.CleanupLuts
import Verif.Klut.Inv
import Verif.Topo.Proof

set_option autoImplicit false

/-!
# cleanup_luts: helper lemmas
-/

namespace Verif.TT

/-- the value of the table can change with variable `j` alone -/
def DependsOn (t : TT) (j : Nat) : Prop := ∃ x y : Nat → Bool, (∀ k, k ≠ j → x k = y k) ∧ t.eval x ≠ t.eval y

theorem hasVar_true {t : TT} {i : Nat} (h : t.hasVar i = true) : t.DependsOn i := by
  rw [hasVar, List.any_eq_true] at h
  obtain ⟨p, _, hp⟩ := h
  refine ⟨upd p.testBit i true, upd p.testBit i false, ?_, ?_⟩
  · intro k hk; simp [upd, hk]
  · rw [eval, eval]; intro e; rw [e] at hp; simp at hp

theorem sw_sw (i j k : Nat) : sw i j (sw i j k) = k := by
  unfold sw; split
  · split
    · omega
    · simp; omega
  · split
    · simp; omega
    · rfl

theorem DependsOn.swap {t : TT} {i j k : Nat} (hi : i < t.n) (hj : j < t.n) (h : t.DependsOn k) :
    (t.swap i j).DependsOn (sw i j k) := by
  obtain ⟨x, y, h1, h2⟩ := h
  refine ⟨fun a => x (sw i j a), fun a => y (sw i j a), ?_, ?_⟩
  · intro a ha
    apply h1
    rintro rfl
    exact ha (sw_sw i j a).symm
  · rw [eval_swap hi hj, eval_swap hi hj]
    simpa only [sw_sw] using h2

theorem minBaseLoop_dep : ∀ (m i : Nat) (t : TT) (sup : List Nat), i + m = t.n → sup.length ≤ i →
    (∀ j, j < sup.length → t.DependsOn j) →
    ∀ j, j < (minBaseLoop (List.range' i m) t sup).2.length → (minBaseLoop (List.range' i m) t sup).1.DependsOn j := by
  intro m
  induction m with
  | zero => intro i t sup _ _ h; rw [List.range'_zero, minBaseLoop]; exact h
  | succ m ih =>
    intro i t sup him hk h
    rw [List.range'_succ, minBaseLoop]
    by_cases hv : t.hasVar i = true
    · rw [if_pos hv]
      refine ih (i + 1) _ _ (by split <;> [rw [TT.n_swap]; skip] <;> omega) (by simp; omega) ?_
      intro j hj
      rw [List.length_append, List.length_singleton] at hj
      by_cases hki : sup.length < i
      · rw [if_pos hki]
        by_cases hj' : j = sup.length
        · subst hj'
          have := DependsOn.swap (i := sup.length) (j := i) (by omega) (by omega) (hasVar_true hv)
          rwa [sw, if_neg (by omega), if_pos rfl] at this
        · have := DependsOn.swap (i := sup.length) (j := i) (by omega) (by omega) (h j (by omega))
          rwa [sw, if_neg (by omega), if_neg (by omega)] at this
      · rw [if_neg hki]
        by_cases hj' : j = sup.length
        · subst hj'
          have : sup.length = i := by omega
          rw [this]; exact hasVar_true hv
        · exact h j (by omega)
    · rw [if_neg hv]
      exact ih (i + 1) t sup (by omega) (by omega) h

theorem minBase_dep (t : TT) (j : Nat) (h : j < t.minBase.2.length) : t.minBase.1.DependsOn j := by
  rw [minBase, List.range_eq_range'] at *
  exact minBaseLoop_dep t.n 0 t [] (by omega) (by simp) (by simp) j h

/-- the variables that `min_base_inplace` reports are used -/
theorem minBase_support (t : TT) {j s : Nat} (h : t.minBase.2[j]? = some s) : t.DependsOn s := by
  obtain ⟨_, _, hp, _, he⟩ := minBase_spec t
  have hnd : t.minBase.2.Nodup := hp.imp (fun h => by omega)
  obtain ⟨x, y, h1, h2⟩ := minBase_dep t j (List.getElem?_eq_some_iff.1 h).1
  refine ⟨fun k => x (t.minBase.2.idxOf k), fun k => y (t.minBase.2.idxOf k), ?_, ?_⟩
  · intro k hk
    apply h1
    rintro rfl
    apply hk
    obtain ⟨hl, rfl⟩ := List.getElem?_eq_some_iff.1 h
    by_cases hm : k ∈ t.minBase.2
    · have := List.getElem_idxOf (List.idxOf_lt_length_iff.2 hm)
      simp [this]
    · rw [List.idxOf_eq_length_iff.2 hm] at hl; omega
  · have key : ∀ z : Nat → Bool, t.minBase.1.eval z = t.eval fun k => z (t.minBase.2.idxOf k) := by
      intro z
      apply he
      intro j s hj
      obtain ⟨hl, rfl⟩ := List.getElem?_eq_some_iff.1 hj
      rw [hnd.idxOf_getElem j hl]
    rw [← key, ← key]; exact h2

theorem DependsOn.shrinkTo {t : TT} {j : Nat} {m : Nat} (hm : m ≤ t.n)
    (h0 : ∀ x y : Nat → Bool, (∀ k, k < m → x k = y k) → t.eval x = t.eval y) (h : t.DependsOn j) :
    (t.shrinkTo m).DependsOn j := by
  obtain ⟨x, y, h1, h2⟩ := h
  refine ⟨x, y, h1, ?_⟩
  rw [eval_shrinkTo hm, eval_shrinkTo hm]
  have e : ∀ z : Nat → Bool, t.eval (fun k => if k < m then z k else false) = t.eval z := by
    intro z; apply h0; intro k hk; simp [hk]
  rw [e, e]; exact h2

end Verif.TT

namespace Verif.Klut

open Topo (FaninsFirst Tfi)

theorem mapLeaves_spec : ∀ (ns : List Nat) (ss : List Nat) (m : NodeMap), ns.Nodup → ns.length = ss.length →
    ∃ m', mapLeaves ns ss m = some m' ∧ (∀ n, n ∉ ns → m' n = m n) ∧
      ∀ (k n s : Nat), ns[k]? = some n → ss[k]? = some s → m' n = s := by
  intro ns
  induction ns with
  | nil => intro ss m _ _; exact ⟨m, rfl, fun _ _ => rfl, by simp⟩
  | cons n ns ih =>
    intro ss m hnd hl
    cases ss with
    | nil => simp at hl
    | cons s ss =>
      rw [List.nodup_cons] at hnd
      obtain ⟨m', e, h1, h2⟩ := ih ss (m.set n s) hnd.2 (by simpa using hl)
      refine ⟨m', e, ?_, ?_⟩
      · intro k hk
        simp only [List.mem_cons, not_or] at hk
        rw [h1 k hk.2]; simp [NodeMap.set, hk.1]
      · intro k a b ha hb
        cases k with
        | zero =>
          simp only [List.getElem?_cons_zero, Option.some.injEq] at ha hb
          subst ha hb
          rw [h1 n hnd.1]; simp [NodeMap.set]
        | succ k => exact h2 k a b (by simpa using ha) (by simpa using hb)

/-- `D'` is `D` with one more LUT -/
structure Added (D : Klut) (cs : List Nat) (f : TT) (D' : Klut) : Prop where
  wf : WF D'
  len : D'.nodes.length = D.nodes.length + 1
  inputs : D'.inputs = D.inputs
  outputs : D'.outputs = D.outputs
  numPis : D'.numPis = D.numPis
  numPos : D'.numPos = D.numPos
  latches : D'.latches = D.latches
  new : D'.IsLut D.nodes.length cs f
  old : ∀ n ds g, D.IsLut n ds g → D'.IsLut n ds g
  only : ∀ n ds g, D'.IsLut n ds g → n = D.nodes.length ∧ ds = cs ∧ g = f ∨ D.IsLut n ds g

theorem createLit_added {D : Klut} (h : WF D) {cs : List Nat} {lit : Nat} {f : TT} (h0 : cs ≠ [])
    (hc : ∀ c ∈ cs, c < D.nodes.length) (hl : D.cache.lookup lit = some f) (hf : f.WF) (hn : f.n = cs.length) :
    Added D cs f (D.createLit cs lit).1 := by
  have hnew : (D.createLit cs lit).1.IsLut D.nodes.length cs f :=
    ⟨h.len, fun hi => by have := (h.inputs _ hi).2; omega, _, createLit_get_new D cs lit, rfl, hl⟩
  refine ⟨h.createLit cs lit f h0 hc hl hf hn, createLit_length _ _ _, rfl, rfl, rfl, rfl, rfl, hnew, ?_, ?_⟩
  · rintro n ds g ⟨h2, hi, nd, hnd, rfl, hg⟩
    refine ⟨h2, hi, { nd with fo := nd.fo + cs.count n }, ?_, rfl, hg⟩
    rw [createLit_get_lt _ _ _ _ (lt_of_get hnd), hnd]; rfl
  · intro n ds g hl'
    have hlt : n < (D.createLit cs lit).1.nodes.length := by
      obtain ⟨_, _, nd, hnd, _⟩ := hl'
      exact lt_of_get hnd
    rw [createLit_length] at hlt
    by_cases he : n = D.nodes.length
    · subst he
      obtain ⟨rfl, rfl⟩ := hl'.unique hnew
      exact Or.inl ⟨rfl, rfl, rfl⟩
    · right
      obtain ⟨h2, hi, nd, hnd, rfl, hg⟩ := hl'
      rw [createLit_get_lt _ _ _ _ (by omega), Option.map_eq_some_iff] at hnd
      obtain ⟨nd0, hnd0, rfl⟩ := hnd
      exact ⟨h2, hi, nd0, hnd0, rfl, hg⟩

theorem createNot_added {D : Klut} (h : WF D) {c : Nat} (hc : c < D.nodes.length) :
    Added D [c] (ofWord 1 1) (D.createNot c).1 :=
  createLit_added h (by simp) (by simpa using hc) (h.tables _ _ lit_not) (TT.wf_ofFn _ _) rfl

theorem createNode_added {D : Klut} (h : WF D) {cs : List Nat} {f : TT} (h0 : cs ≠ [])
    (hc : ∀ c ∈ cs, c < D.nodes.length) (hf : f.WF) (hn : f.n = cs.length) :
    Added D cs f (D.createNode cs f).1 ∧ (D.createNode cs f).2 = D.nodes.length := by
  have hl0 : ¬ cs.length = 0 := by intro e; exact h0 (List.length_eq_zero_iff.1 e)
  have hi := TTCache.insert_spec D.cache h.cache f hf
  rw [createNode, if_neg hl0]
  refine ⟨?_, rfl⟩
  have ha := createLit_added (h.insert f hf) h0 hc hi.2.1 hf hn
  refine ⟨ha.wf, ha.len, ha.inputs, ha.outputs, ha.numPis, ha.numPos, ha.latches, ha.new, ?_, ?_⟩
  · rintro n ds g ⟨h2, hni, nd, hnd, rfl, hg⟩
    exact ha.old n _ g ⟨h2, hni, nd, hnd, rfl, hi.2.2.1 _ _ hg⟩
  · intro n ds g hl
    rcases ha.only n ds g hl with e | ⟨h2, hni, nd, hnd, rfl, hg⟩
    · exact Or.inl e
    · right
      refine ⟨h2, hni, nd, hnd, rfl, ?_⟩
      obtain ⟨_, _, g', hg', _⟩ := h.gate n nd hnd h2 hni
      have := hi.2.2.1 _ _ hg'
      rw [this] at hg
      rw [hg', hg]

theorem Added.consistent {D D' : Klut} {cs : List Nat} {f : TT} (h : Added D cs f D') {x v : Nat → Bool}
    (hv : Consistent D' x v) : Consistent D x v :=
  ⟨hv.const0, hv.const1, by rw [← h.inputs]; exact hv.input, fun n ds g hl => hv.lut n ds g (h.old n ds g hl)⟩

/-! ### the new function of a LUT -/

theorem propagate_n (m : NodeMap) : ∀ (fs : List Nat) (i : Nat) (t : TT), (propagate m i fs t).n = t.n := by
  intro fs
  induction fs with
  | nil => intro i t; rfl
  | cons f fs ih => intro i t; rw [propagate, ih]; split <;> [split; skip] <;> rfl

/-- the value of an input with a constant image is filled in -/
def fill (m : NodeMap) (i : Nat) (fs : List Nat) (x : Nat → Bool) : Nat → Bool := fun k =>
  if k < i then x k else match fs[k - i]? with
    | some f => if isConstant (m f) then constantValue (m f) else x k
    | none => x k

theorem propagate_eval (m : NodeMap) : ∀ (fs : List Nat) (i : Nat) (t : TT) (x : Nat → Bool),
    (propagate m i fs t).eval x = t.eval (fill m i fs x) := by
  intro fs
  induction fs with
  | nil => intro i t x; rw [propagate]; congr 1; funext k; unfold fill; split <;> simp
  | cons f fs ih =>
    intro i t x
    rw [propagate, ih]
    have e : ∀ b, (isConstant (m f) = true ∧ constantValue (m f) = b) ∨ (isConstant (m f) = false ∧ x i = b) →
        TT.upd (fill m (i + 1) fs x) i b = fill m i (f :: fs) x := by
      intro b hb
      funext k
      unfold TT.upd
      split
      · rename_i hk
        subst hk
        unfold fill
        rcases hb with ⟨h1, h2⟩ | ⟨h1, h2⟩ <;> simp [h1, h2]
      · rename_i hk
        unfold fill
        by_cases hlt : k < i
        · simp [hlt, show k < i + 1 by omega]
        · simp only [hlt, show ¬ k < i + 1 by omega, if_false]
          have : k - i = (k - (i + 1)) + 1 := by omega
          rw [this, List.getElem?_cons_succ]
    by_cases hc : isConstant (m f) = true
    · rw [if_pos hc]
      cases hv : constantValue (m f)
      · rw [if_neg (by simp), TT.eval_cofactor, e false (Or.inl ⟨hc, hv⟩)]
      · rw [if_pos (by simp), TT.eval_cofactor, e true (Or.inl ⟨hc, hv⟩)]
    · have hc' : isConstant (m f) = false := by simpa using hc
      rw [if_neg hc, ← e (x i) (Or.inr ⟨hc', rfl⟩)]
      congr 1
      funext k
      unfold TT.upd
      split
      · rename_i hk
        subst hk
        unfold fill; simp
      · rfl

theorem pickChildren_spec (m : NodeMap) : ∀ (fs : List Nat) (sup : List Nat) (i : Nat), sup.Pairwise (· < ·) →
    (∀ s ∈ sup, i ≤ s ∧ s < i + fs.length) →
    (pickChildren m sup i fs).length = sup.length ∧
    ∀ (j s : Nat), sup[j]? = some s → ∃ f, fs[s - i]? = some f ∧ (pickChildren m sup i fs)[j]? = some (m f) := by
  intro fs
  induction fs with
  | nil =>
    intro sup i _ hb
    cases sup with
    | nil => exact ⟨rfl, by simp⟩
    | cons s ss => have := hb s (by simp); simp at this; omega
  | cons f fs ih =>
    intro sup i hp hb
    cases sup with
    | nil => exact ⟨rfl, by simp⟩
    | cons s ss =>
      rw [pickChildren]
      rw [List.pairwise_cons] at hp
      by_cases hs : s = i
      · rw [if_pos hs]
        obtain ⟨h1, h2⟩ := ih ss (i + 1) hp.2 (by
          intro a ha
          have h1 := hp.1 a ha
          have h2 := hb a (by simp [ha])
          simp only [List.length_cons] at h2
          omega)
        refine ⟨by simp [h1], ?_⟩
        intro j a hj
        cases j with
        | zero =>
          simp only [List.getElem?_cons_zero, Option.some.injEq] at hj
          subst hj hs
          exact ⟨f, by simp, by simp⟩
        | succ j =>
          rw [List.getElem?_cons_succ] at hj
          obtain ⟨g, hg, hg'⟩ := h2 j a hj
          have ha := hp.1 a (List.mem_of_getElem? hj)
          refine ⟨g, ?_, by simpa using hg'⟩
          rw [show a - i = (a - (i + 1)) + 1 by omega, List.getElem?_cons_succ]; exact hg
      · rw [if_neg hs]
        obtain ⟨h1, h2⟩ := ih (s :: ss) (i + 1) (List.pairwise_cons.2 hp) (by
          intro a ha
          have h2 := hb a ha
          simp only [List.length_cons] at h2
          have h3 := hb s (by simp)
          rcases List.mem_cons.1 ha with ha' | ha'
          · omega
          · have := hp.1 a ha'; omega)
        refine ⟨h1, ?_⟩
        intro j a hj
        obtain ⟨g, hg, hg'⟩ := h2 j a hj
        have ha : i < a := by
          have h3 := hb s (by simp)
          rcases List.mem_cons.1 (List.mem_of_getElem? hj) with ha' | ha'
          · omega
          · have := hp.1 a ha'; omega
        refine ⟨g, ?_, hg'⟩
        rw [show a - i = (a - (i + 1)) + 1 by omega, List.getElem?_cons_succ]; exact hg

/-- what the code computes for one LUT before it creates anything -/
theorem newFunc_spec (m : NodeMap) (fs : List Nat) (t : TT) (hn : t.n = fs.length) :
    let r := (propagate m 0 fs t).minBase
    let u := r.1.shrinkTo r.2.length
    let cs := pickChildren m r.2 0 fs
    u.n = r.2.length ∧ cs.length = u.n ∧ u.WF ∧ cs.length ≤ fs.length ∧ (∀ c ∈ cs, ¬ isConstant c = true ∧ ∃ f ∈ fs, c = m f) ∧
    (∀ j, j < u.n → u.DependsOn j) ∧
    ∀ v w : Nat → Bool, w 0 = false → w 1 = true → (∀ f ∈ fs, w (m f) = v f) → u.eval (args w cs) = t.eval (args v fs) := by
  intro r u cs
  obtain ⟨b1, b2, b3, b4, b5⟩ := TT.minBase_spec (propagate m 0 fs t)
  rw [propagate_n] at b1 b2 b4
  have hpick := pickChildren_spec m fs r.2 0 b3 (fun s hs => ⟨by omega, by have := b4 s hs; omega⟩)
  have hle : r.2.length ≤ r.1.n := by show _ ≤ (propagate m 0 fs t).minBase.1.n; rw [b1]; exact b2
  have hcov : ∀ x y : Nat → Bool, (∀ k, k < r.2.length → x k = y k) → r.1.eval x = r.1.eval y := by
    intro x y hxy
    have hnd : r.2.Nodup := b3.imp (fun h => by omega)
    have key : ∀ z : Nat → Bool, r.1.eval z = (propagate m 0 fs t).eval fun k => z (r.2.idxOf k) := by
      intro z
      apply b5
      intro j s hj
      obtain ⟨hl, rfl⟩ := List.getElem?_eq_some_iff.1 hj
      rw [hnd.idxOf_getElem j hl]
    have key2 : r.1.eval x = r.1.eval fun k => if k < r.2.length then x k else y k := by
      rw [key]; symm; apply b5
      intro j s hj
      obtain ⟨hl, rfl⟩ := List.getElem?_eq_some_iff.1 hj
      have hl' : j < r.2.length := hl
      show (if j < r.2.length then x j else y j) = _
      rw [if_pos hl', hnd.idxOf_getElem j hl]
    rw [key2]; congr 1; funext k; split
    · rename_i h; exact hxy k h
    · rfl
  have hlen : cs.length = r.2.length := hpick.1
  refine ⟨rfl, hlen, TT.wf_ofFn _ _, by rw [hlen, ← hn]; exact b2, ?_, ?_, ?_⟩
  · intro c hc
    obtain ⟨j, hj⟩ := List.mem_iff_getElem?.1 hc
    have hjl := (List.getElem?_eq_some_iff.1 hj).1
    rw [hlen] at hjl
    obtain ⟨f, hf, hf'⟩ := hpick.2 j _ (List.getElem?_eq_getElem hjl)
    rw [hj] at hf'
    obtain rfl := Option.some.inj hf'
    refine ⟨?_, f, List.mem_of_getElem? hf, rfl⟩
    intro hcst
    obtain ⟨x, y, h1, h2⟩ := TT.minBase_support (propagate m 0 fs t) (List.getElem?_eq_getElem hjl)
    apply h2
    rw [propagate_eval, propagate_eval]
    congr 1
    funext k
    unfold fill
    simp only [Nat.not_lt_zero, if_false, Nat.sub_zero]
    by_cases hk : k = r.2[j]
    · subst hk
      rw [Nat.sub_zero] at hf
      rw [hf]
      simp [hcst]
    · cases hfk : fs[k]? with
      | none => exact h1 k hk
      | some g => dsimp only; split; · rfl
                  · exact h1 k hk
  · intro j hj
    exact (TT.minBase_dep (propagate m 0 fs t) j hj).shrinkTo hle hcov
  · intro v w hw0 hw1 hw
    show (r.1.shrinkTo r.2.length).eval _ = _
    rw [TT.eval_shrinkTo hle]
    have e1 : r.1.eval (fun k => if k < r.2.length then args w cs k else false) = (propagate m 0 fs t).eval (args v fs) := by
      apply b5
      intro j s hj
      have hjl := (List.getElem?_eq_some_iff.1 hj).1
      obtain ⟨f, hf, hf'⟩ := hpick.2 j s hj
      rw [Nat.sub_zero] at hf
      have hjl' : j < r.2.length := hjl
      simp only [if_pos hjl']
      unfold args
      rw [show cs[j]? = some (m f) from hf', hf]
      exact hw f (List.mem_of_getElem? hf)
    rw [e1, propagate_eval]
    congr 1
    funext k
    unfold fill
    simp only [Nat.not_lt_zero, if_false, Nat.sub_zero]
    cases hfk : fs[k]? with
    | none => rfl
    | some f =>
      dsimp only
      split
      · rename_i hcst
        unfold args
        rw [hfk]
        show _ = v f
        rw [← hw f (List.mem_of_getElem? hfk)]
        have hle1 : m f ≤ 1 := by simpa [isConstant] using hcst
        have hor : m f = 0 ∨ m f = 1 := by omega
        rcases hor with h | h
        · rw [h, hw0]; rfl
        · rw [h, hw1]; rfl
      · rfl

/-! ### the loop -/

/-- no constant fanins, no fanins the function does not depend on, and a single fanin only for an inverter -/
structure Tidy (cs : List Nat) (f : TT) : Prop where
  pos : cs ≠ []
  nonconst : ∀ c ∈ cs, 2 ≤ c
  used : ∀ j, j < cs.length → f.DependsOn j
  single : cs.length = 1 → ∀ x, f.eval x = !x 0

/-- `ℓ` grows along the fanins -/
def Levels (N : Klut) (ℓ : Nat → Nat) : Prop := ∀ n cs f, N.IsLut n cs f → ∀ c ∈ cs, ℓ c < ℓ n

/-- state of the loop after the nodes `done` -/
structure Clean (N D0 : Klut) (done : List Nat) (D : Klut) (m : NodeMap) : Prop where
  built : Built D
  inputs : D.inputs = D0.inputs
  outputs : D.outputs = D0.outputs
  numPis : D.numPis = D0.numPis
  numPos : D.numPos = D0.numPos
  latches : D.latches = D0.latches
  valid : ∀ n, m n < D.nodes.length
  tidy : ∀ n cs f, D.IsLut n cs f → Tidy cs f
  size : ∀ k, (∀ n cs f, N.IsLut n cs f → cs.length ≤ k) → ∀ n cs f, D.IsLut n cs f → cs.length ≤ k
  val : ∀ x v w, Consistent N x v → Consistent D x w → ∀ n ∈ done, w (m n) = v n
  level : ∀ ℓ, Levels N ℓ → ∃ ℓ', Levels D ℓ' ∧ ∀ n ∈ done, ℓ' (m n) ≤ ℓ n

theorem eval_one {u : TT} (hn : u.n = 1) (hd : u.DependsOn 0) (hu : u.WF) :
    (u = ofWord 1 0b10 → ∀ x, u.eval x = x 0) ∧ (u ≠ ofWord 1 0b10 → ∀ x, u.eval x = !x 0) := by
  obtain ⟨n, bits⟩ := u
  simp only at hn
  subst hn
  have hl : bits.length = 2 := hu
  match bits, hl with
  | [a, b], _ =>
    obtain ⟨x, y, _, h2⟩ := hd
    have ev : ∀ x : Nat → Bool, (⟨1, [a, b]⟩ : TT).eval x = if x 0 then b else a := by
      intro x
      show (TT.mk 1 [a, b]).get (TT.pos x 1) = _
      simp only [TT.pos, TT.get]
      cases x 0 <;> rfl
    rw [ev, ev] at h2
    have hw : ofWord 1 0b10 = ⟨1, [false, true]⟩ := by decide
    rw [hw]
    revert h2
    cases a <;> cases b <;> simp [ev]

/-- a step that creates the LUT `cs`, `f` for the source node `n` -/
theorem Clean.add {N D0 D D' : Klut} {done : List Nat} {m : NodeMap} (h : Clean N D0 done D m) {n : Nat}
    {fs cs : List Nat} {t u : TT} (hl : N.IsLut n fs t) (hb : Built D') (ha : Added D cs u D') (ht : Tidy cs u)
    (hle : cs.length ≤ fs.length) (hfs : ∀ c ∈ cs, ∃ f ∈ fs, c = m f) (hdone : ∀ f ∈ fs, f ∈ done)
    (hev : ∀ v w : Nat → Bool, w 0 = false → w 1 = true → (∀ f ∈ fs, w (m f) = v f) →
      u.eval (args w cs) = t.eval (args v fs)) :
    Clean N D0 (done ++ [n]) D' (m.set n D.nodes.length) := by
  refine ⟨hb, ha.inputs.trans h.inputs, ha.outputs.trans h.outputs, ha.numPis.trans h.numPis, ha.numPos.trans h.numPos,
    ha.latches.trans h.latches, ?_, ?_, ?_, ?_, ?_⟩
  · intro k
    have := h.valid k
    rw [ha.len]; unfold NodeMap.set; split <;> omega
  · intro k ds g hk
    rcases ha.only k ds g hk with ⟨_, rfl, rfl⟩ | hk
    · exact ht
    · exact h.tidy k ds g hk
  · intro K hK k ds g hk
    rcases ha.only k ds g hk with ⟨_, rfl, rfl⟩ | hk
    · have := hK n fs t hl; omega
    · exact h.size K hK k ds g hk
  · intro x v w hv hw k hk
    have hw' := ha.consistent hw
    by_cases hkn : k = n
    · subst hkn
      simp only [NodeMap.set, if_pos]
      rw [hw.lut _ _ _ ha.new, hv.lut _ _ _ hl]
      exact hev v w hw.const0 hw.const1 (fun f hf => h.val x v w hv hw' f (hdone f hf))
    · simp only [NodeMap.set, if_neg hkn]
      refine h.val x v w hv hw' k ?_
      rcases List.mem_append.1 hk with hk | hk
      · exact hk
      · exact absurd (List.mem_singleton.1 hk) hkn
  · intro ℓ hℓ
    obtain ⟨ℓ', h1, h2⟩ := h.level ℓ hℓ
    have hold : ∀ k ds g, D.IsLut k ds g → k < D.nodes.length := fun k ds g hk => (h.built.wf.lut hk).1
    have hlow : ∀ k ds g, D.IsLut k ds g → ∀ c ∈ ds, c < k := fun k ds g hk => (h.built.wf.lut hk).2.2.1
    refine ⟨fun k => if k = D.nodes.length then ℓ n else ℓ' k, ?_, ?_⟩
    · intro k ds g hk c hc
      rcases ha.only k ds g hk with ⟨rfl, rfl, rfl⟩ | hk
      · obtain ⟨f, hf, rfl⟩ := hfs c hc
        have hv := h.valid f
        simp only [if_pos, if_neg (by omega : ¬ m f = D.nodes.length)]
        have := h2 f (hdone f hf)
        have := hℓ n fs t hl f hf
        omega
      · have a1 := hold k ds g hk
        have a2 := hlow k ds g hk c hc
        simp only [if_neg (by omega : ¬ k = D.nodes.length), if_neg (by omega : ¬ c = D.nodes.length)]
        exact h1 k ds g hk c hc
    · intro k hk
      by_cases hkn : k = n
      · subst hkn; simp [NodeMap.set]
      · have hv := h.valid k
        simp only [NodeMap.set, if_neg hkn, if_neg (by omega : ¬ m k = D.nodes.length)]
        refine h2 k ?_
        rcases List.mem_append.1 hk with hk | hk
        · exact hk
        · exact absurd (List.mem_singleton.1 hk) hkn

/-- a step that reuses a node -/
theorem Clean.reuse {N D0 D : Klut} {done : List Nat} {m : NodeMap} (h : Clean N D0 done D m) {n s : Nat}
    {fs : List Nat} {t : TT} (hl : N.IsLut n fs t) (hs : s < D.nodes.length) (hdone : ∀ f ∈ fs, f ∈ done)
    (hev : ∀ v w : Nat → Bool, w 0 = false → w 1 = true → (∀ f ∈ fs, w (m f) = v f) → w s = t.eval (args v fs))
    (hlev : s ≤ 1 ∨ ∃ f ∈ fs, s = m f) :
    Clean N D0 (done ++ [n]) D (m.set n s) := by
  refine ⟨h.built, h.inputs, h.outputs, h.numPis, h.numPos, h.latches, ?_, h.tidy, h.size, ?_, ?_⟩
  · intro k
    have := h.valid k
    unfold NodeMap.set; split <;> omega
  · intro x v w hv hw k hk
    by_cases hkn : k = n
    · subst hkn
      simp only [NodeMap.set, if_pos]
      rw [hv.lut _ _ _ hl]
      exact hev v w hw.const0 hw.const1 (fun f hf => h.val x v w hv hw f (hdone f hf))
    · simp only [NodeMap.set, if_neg hkn]
      refine h.val x v w hv hw k ?_
      rcases List.mem_append.1 hk with hk | hk
      · exact hk
      · exact absurd (List.mem_singleton.1 hk) hkn
  · intro ℓ hℓ
    obtain ⟨ℓ', h1, h2⟩ := h.level ℓ hℓ
    have hs0 : ∀ k ds g, D.IsLut k ds g → ¬ k ≤ 1 := fun k ds g hk => by have := hk.1; omega
    refine ⟨fun k => if k ≤ 1 then 0 else ℓ' k, ?_, ?_⟩
    · intro k ds g hk c hc
      have := h1 k ds g hk c hc
      simp only [if_neg (hs0 k ds g hk)]
      split <;> omega
    · intro k hk
      by_cases hkn : k = n
      · subst hkn
        simp only [NodeMap.set, if_pos]
        rcases hlev with hs1 | ⟨f, hf, rfl⟩
        · rw [if_pos hs1]; omega
        · have := h2 f (hdone f hf)
          have := hℓ k fs t hl f hf
          split <;> omega
      · simp only [NodeMap.set, if_neg hkn]
        have : ℓ' (m k) ≤ ℓ k := by
          refine h2 k ?_
          rcases List.mem_append.1 hk with hk | hk
          · exact hk
          · exact absurd (List.mem_singleton.1 hk) hkn
        split <;> omega

theorem WF.isCi {N : Klut} (h : WF N) {n : Nat} : N.isCi n = true ↔ n ∈ N.inputs := by
  constructor
  · intro hc
    unfold Klut.isCi at hc
    split at hc
    · rename_i nd hnd
      refine (h.flags n nd hnd).1 ?_
      simpa using hc
    · exact absurd hc (by simp)
  · intro hi
    obtain ⟨nd, hnd⟩ : ∃ nd, N.nodes[n]? = some nd := ⟨_, List.getElem?_eq_getElem (h.inputs n hi).2⟩
    unfold Klut.isCi
    rw [hnd]
    simpa using (h.flags n nd hnd).2 hi

theorem WF.isLut {N : Klut} (h : WF N) {n : Nat} (h2 : 2 ≤ n) (hlt : n < N.nodes.length) (hni : n ∉ N.inputs) :
    ∃ fs t, N.IsLut n fs t ∧ N.fanins n = some fs ∧ N.nodeFunction n = some t := by
  obtain ⟨nd, hnd⟩ : ∃ nd, N.nodes[n]? = some nd := ⟨_, List.getElem?_eq_getElem hlt⟩
  obtain ⟨_, _, f, hf, _⟩ := h.gate n nd hnd h2 hni
  refine ⟨nd.children, f, ⟨h2, hni, nd, hnd, rfl, hf⟩, ?_, ?_⟩
  · have : ¬ (n = 0 ∨ N.isCi n = true) := by rw [h.isCi]; rintro (e | e); · omega
                                             · exact hni e
    rw [fanins, if_neg this, hnd]; rfl
  · rw [nodeFunction, hnd]; exact hf

theorem cleanLut_spec {N D0 D : Klut} {done : List Nat} {m : NodeMap} (hN : WF N) (h : Clean N D0 done D m) {n : Nat}
    (h2 : 2 ≤ n) (hlt : n < N.nodes.length) (hni : n ∉ N.inputs) (hdone : ∀ f ∈ N.topoFanins n, f ∈ done) :
    ∃ D' m', cleanLut N D m n = some (D', m') ∧ Clean N D0 (done ++ [n]) D' m' ∧ D'.nodes.length ≤ D.nodes.length + 1 := by
  obtain ⟨fs, t, hl, hfan, hfn⟩ := hN.isLut h2 hlt hni
  rw [topoFanins, hfan] at hdone
  dsimp only at hdone
  have hns : ¬ (isConstant n = true ∨ N.isCi n = true) := by
    rw [hN.isCi]; rintro (e | e)
    · simp [isConstant] at e; omega
    · exact hni e
  rw [cleanLut, if_neg hns, hfn, hfan]
  dsimp only
  obtain ⟨u1, u2, u3, u4, u5, u6, u7⟩ := newFunc_spec m fs t (hN.lut hl).2.2.2.2
  generalize hr : (propagate m 0 fs t).minBase = r at *
  generalize hu : r.1.shrinkTo r.2.length = u at *
  generalize hcs : pickChildren m r.2 0 fs = cs at *
  by_cases hz : u.n = 0
  · rw [if_pos hz]
    refine ⟨_, _, rfl, h.reuse hl ?_ hdone ?_ (Or.inl ?_), by omega⟩
    · have := h.built.wf.len
      unfold getConstant; split <;> omega
    · intro v w w0 w1 hw
      rw [← u7 v w w0 w1 hw]
      have e : ∀ x : Nat → Bool, u.eval x = !u.isConst0 := by
        intro x
        obtain ⟨k, bits⟩ := u
        simp only at hz
        subst hz
        have hbl : bits.length = 1 := u3
        match bits, hbl with
        | [a], _ => cases a <;> simp [TT.eval, TT.get, TT.pos, TT.isConst0]
      rw [e]
      cases u.isConst0 <;> simp [getConstant, w0, w1]
    · unfold getConstant; split <;> omega
  · rw [if_neg hz]
    have hcv : ∀ c ∈ cs, c < D.nodes.length := by
      intro c hc
      obtain ⟨f, _, rfl⟩ := (u5 c hc).2
      exact h.valid f
    have hcn : ∀ c ∈ cs, 2 ≤ c := by
      intro c hc
      have := (u5 c hc).1
      simp [isConstant] at this; omega
    by_cases h1 : u.n = 1
    · rw [if_pos h1]
      rw [h1] at u2
      match cs, u2 with
      | [c], _ =>
        dsimp only
        obtain ⟨o1, o2⟩ := eval_one h1 (u6 0 (by omega)) u3
        by_cases hid : u = ofWord 1 0b10
        · rw [if_pos hid]
          refine ⟨_, _, rfl, h.reuse hl (hcv c (by simp)) hdone ?_ (Or.inr (u5 c (by simp)).2), by omega⟩
          intro v w w0 w1 hw
          rw [← u7 v w w0 w1 hw, o1 hid]; rfl
        · rw [if_neg hid]
          have ha := createNot_added h.built.wf (hcv c (by simp))
          have e1 : ∀ x : Nat → Bool, (ofWord 1 1).eval x = !x 0 := by
            intro x
            rw [ofWord, TT.eval_ofFn]
            simp only [TT.pos]
            cases x 0 <;> rfl
          refine ⟨_, _, rfl, ?_, by rw [ha.len]⟩
          refine h.add hl (h.built.not (hcv c (by simp))) ha ⟨by simp, hcn, ?_, fun _ => e1⟩ u4
            (fun c hc => (u5 c hc).2) hdone ?_
          · intro j hj
            simp only [List.length_singleton] at hj
            obtain rfl : j = 0 := by omega
            exact ⟨fun _ => false, fun k => if k = 0 then true else false, by intro k hk; simp [hk], by rw [e1, e1]; simp⟩
          · intro v w w0 w1 hw
            rw [← u7 v w w0 w1 hw, e1, o2 hid]
    · rw [if_neg h1]
      have hcs0 : cs ≠ [] := by
        intro e
        rw [e] at u2
        simp at u2; omega
      obtain ⟨ha, he⟩ := createNode_added h.built.wf hcs0 hcv u3 u2.symm
      refine ⟨_, _, rfl, ?_, by rw [ha.len]⟩
      rw [he]
      exact h.add hl (h.built.node hcv u3 u2.symm) ha ⟨hcs0, hcn, fun j hj => u6 j (by omega), fun e => by omega⟩ u4
        (fun c hc => (u5 c hc).2) hdone u7

theorem cleanLoop_spec {N D0 : Klut} (hN : WF N) {order : List Nat} (hff : FaninsFirst N.topoFanins order) :
    ∀ (rest done : List Nat) (D : Klut) (m : NodeMap), order = done ++ rest →
      (∀ n ∈ rest, 2 ≤ n ∧ n < N.nodes.length ∧ n ∉ N.inputs) → Clean N D0 done D m →
      ∃ D' m', cleanLoop N rest D m = some (D', m') ∧ Clean N D0 order D' m' ∧
        D'.nodes.length ≤ D.nodes.length + rest.length := by
  intro rest
  induction rest with
  | nil => intro done D m e _ h; exact ⟨D, m, rfl, by rw [e]; simpa using h, by simp⟩
  | cons n rest ih =>
    intro done D m e hr h
    obtain ⟨r1, r2, r3⟩ := hr n (by simp)
    obtain ⟨D', m', e', h', l'⟩ := cleanLut_spec hN h r1 r2 r3 (fun f hf => hff done n rest e f hf)
    rw [cleanLoop, e']
    dsimp only
    obtain ⟨D2, m2, e2, h2, l2⟩ := ih (done ++ [n]) D' m' (by rw [e]; simp) (fun k hk => hr k (by simp [hk])) h'
    exact ⟨D2, m2, e2, h2, by simp only [List.length_cons]; omega⟩

theorem cleanLoop_skip (N : Klut) (l2 : List Nat) (D : Klut) (m : NodeMap) : ∀ l : List Nat,
    (∀ n ∈ l, isConstant n = true ∨ N.isCi n = true) → cleanLoop N (l ++ l2) D m = cleanLoop N l2 D m := by
  intro l
  induction l with
  | nil => intro _; rfl
  | cons n l ih =>
    intro h
    rw [List.cons_append, cleanLoop, cleanLut, if_pos (h n (by simp))]
    exact ih fun k hk => h k (by simp [hk])

/-! ### inputs and outputs -/

theorem cloneInputs_spec : ∀ (k : Nat) (D : Klut), Built D →
    Built (cloneInputs k D).1 ∧ (cloneInputs k D).1.inputs = D.inputs ++ (cloneInputs k D).2 ∧
    (cloneInputs k D).2.length = k ∧ (cloneInputs k D).1.nodes.length = D.nodes.length + k ∧
    (cloneInputs k D).1.outputs = D.outputs ∧ (cloneInputs k D).1.numPis = D.numPis + k ∧
    (cloneInputs k D).1.numPos = D.numPos ∧ (cloneInputs k D).1.latches = D.latches ∧
    (∀ n cs f, (cloneInputs k D).1.IsLut n cs f → D.IsLut n cs f) := by
  intro k
  induction k with
  | zero => intro D h; exact ⟨h, by simp [cloneInputs], rfl, rfl, rfl, rfl, rfl, rfl, fun _ _ _ h => h⟩
  | succ k ih =>
    intro D h
    obtain ⟨h1, h2, h3, h4, h5, h6, h7, h8, h9⟩ := ih D.createPi.1 h.pi
    rw [cloneInputs]
    refine ⟨h1, ?_, by simp [h3], ?_, h5, ?_, h7, h8, ?_⟩
    · rw [h2]; simp [createPi]
    · rw [h4]; simp [createPi]; omega
    · rw [h6]; simp [createPi]; omega
    · intro n cs f hl
      obtain ⟨a2, ai, nd, hnd, rfl, hf⟩ := h9 n cs f hl
      have hni : n ∉ D.inputs ∧ n ≠ D.nodes.length := by simpa [createPi] using ai
      refine ⟨a2, hni.1, nd, ?_, rfl, hf⟩
      have hlt := lt_of_get hnd
      simp only [createPi, List.length_append, List.length_singleton] at hlt
      have := hni.2
      rw [← hnd]
      simp only [createPi]
      rw [List.getElem?_append_left (by omega)]

theorem cloneOutputs_spec : ∀ (l : List Nat) (D : Klut), Built D → (∀ o ∈ l, o < D.nodes.length) →
    Built (cloneOutputs D l) ∧ (cloneOutputs D l).inputs = D.inputs ∧ (cloneOutputs D l).outputs = D.outputs ++ l ∧
    (cloneOutputs D l).nodes.length = D.nodes.length ∧ (cloneOutputs D l).numPis = D.numPis ∧
    (cloneOutputs D l).numPos = D.numPos + l.length ∧ (cloneOutputs D l).latches = D.latches ∧
    ∀ n cs f, (cloneOutputs D l).IsLut n cs f ↔ D.IsLut n cs f := by
  intro l
  induction l with
  | nil => intro D h _; exact ⟨h, rfl, by simp [cloneOutputs], rfl, rfl, rfl, rfl, fun _ _ _ => Iff.rfl⟩
  | cons o l ih =>
    intro D h ho
    have hlen : (D.createPo o).nodes.length = D.nodes.length := by simp [createPo, incFo]
    obtain ⟨h1, h2, h3, h4, h5, h6, h7, h8⟩ := ih (D.createPo o) (h.po (ho o (by simp)))
      (fun k hk => by rw [hlen]; exact ho k (by simp [hk]))
    rw [cloneOutputs]
    refine ⟨h1, h2, ?_, by rw [h4, hlen], h5, ?_, h7, ?_⟩
    · rw [h3]; simp [createPo]
    · rw [h6]; simp [createPo]; omega
    · intro n cs f
      rw [h8]
      have hget : (D.createPo o).nodes[n]? =
          (D.nodes[n]?).map fun nd => { nd with fo := nd.fo + if o = n then 1 else 0 } := by
        simp only [createPo, incFo, List.getElem?_modify]
        cases D.nodes[n]? with
        | none => rfl
        | some nd => by_cases e : o = n <;> simp [e]
      constructor
      · rintro ⟨a1, a2, nd, hnd, rfl, hf⟩
        rw [hget, Option.map_eq_some_iff] at hnd
        obtain ⟨nd0, hnd0, rfl⟩ := hnd
        exact ⟨a1, a2, nd0, hnd0, rfl, hf⟩
      · rintro ⟨a1, a2, nd, hnd, rfl, hf⟩
        exact ⟨a1, a2, { nd with fo := nd.fo + if o = n then 1 else 0 }, by rw [hget, hnd]; rfl, rfl, hf⟩

theorem topoFanins_of_not {N : Klut} (h : WF N) {n : Nat} (hn : n < 2 ∨ n ∈ N.inputs) : N.topoFanins n = [] := by
  unfold topoFanins fanins
  split
  · rename_i l hl
    split at hl
    · exact (Option.some.inj hl).symm
    · rw [Option.map_eq_some_iff] at hl
      obtain ⟨nd, hnd, rfl⟩ := hl
      exact h.nogate n nd hnd hn
  · rfl

theorem topoFanins_ranked {N : Klut} (h : WF N) : Topo.Ranked N.topoFanins id := by
  intro n c hc
  by_cases hn : n < 2 ∨ n ∈ N.inputs
  · rw [topoFanins_of_not h hn] at hc; simp at hc
  · push Not at hn
    unfold topoFanins fanins at hc
    split at hc
    · rename_i l hl
      split at hl
      · obtain rfl := Option.some.inj hl; simp at hc
      · rw [Option.map_eq_some_iff] at hl
        obtain ⟨nd, hnd, rfl⟩ := hl
        exact (h.gate n nd hnd hn.1 hn.2).2.1 c hc
    · simp at hc

/-- everything about the result -/
theorem cleanupLuts_spec {N : Klut} (hN : WF N) (hreg : N.numPis = N.inputs.length) {vis : Nat → Nat} {travId fuel : Nat}
    (hvis : ∀ n, vis n ≤ travId) (hfuel : N.nodes.length ≤ fuel) :
    ∃ D0 D m order, N.topoOrder vis travId fuel = some order ∧ Clean N D0 order D m ∧
      D0.inputs.length = N.numPis ∧ D0.outputs = [] ∧ D0.numPis = N.numPis ∧ D0.numPos = 0 ∧ D0.latches = [] ∧
      D.nodes.length ≤ N.nodes.length ∧
      (∃ rest : List Nat, rest.Nodup ∧ D.nodes.length ≤ 2 + N.numPis + rest.length ∧
        ∀ n ∈ rest, 2 ≤ n ∧ n < N.nodes.length ∧ n ∉ N.inputs ∧ ∃ o ∈ N.outputs, Tfi N.topoFanins o n) ∧
      (∀ o ∈ N.outputs, o ∈ order) ∧
      cleanupLuts N vis travId fuel = some (cloneOutputs D ((N.outputs.take N.numPos).map m)) := by
  have hnd : (0 :: getConstant true :: N.inputs).Nodup := by
    have h0 : (0 : Nat) ∉ N.inputs := fun h => by have := (hN.inputs 0 h).1; omega
    have h1 : (1 : Nat) ∉ N.inputs := fun h => by have := (hN.inputs 1 h).1; omega
    simp [getConstant, h0, h1, hN.inputsNodup]
  obtain ⟨s, rest, e, eo, nd, hff, hmem⟩ := Topo.updateTopo_spec (topoFanins_ranked hN) (cis := getConstant true :: N.inputs)
    (roots := N.outputs) (f := fuel) hvis (topoFanins_of_not hN (by omega)) (by
      intro n hn
      refine topoFanins_of_not hN ?_
      rcases List.mem_cons.1 hn with hn | hn
      · left; rw [hn]; simp [getConstant]
      · exact Or.inr hn) hnd (fun n hn => by have := hN.outputs n hn; simp only [id]; omega)
  have etopo : N.topoOrder vis travId fuel = some s.order := by rw [topoOrder, e]; rfl
  obtain ⟨q1, q2, q3, q4, q5, q6, q7, q8, q9⟩ := cloneInputs_spec N.numPis Klut.empty Built.empty
  have nolut : ∀ n cs f, ¬ (cloneInputs N.numPis Klut.empty).1.IsLut n cs f := by
    intro n cs f hl
    obtain ⟨h2, _, nd, hnd, _⟩ := q9 n cs f hl
    have := lt_of_get hnd
    simp [Klut.empty] at this; omega
  have q2' : (cloneInputs N.numPis Klut.empty).1.inputs = (cloneInputs N.numPis Klut.empty).2 := by
    rw [q2]; simp [Klut.empty]
  generalize hq : cloneInputs N.numPis Klut.empty = q at *
  have htake : N.inputs.take N.numPis = N.inputs := by rw [hreg]; exact List.take_length
  obtain ⟨m, em, hm1, hm2⟩ := mapLeaves_spec N.inputs q.2 (NodeMap.set (NodeMap.set (fun _ => 0) (getConstant false) (getConstant false))
    (getConstant true) (getConstant true)) hN.inputsNodup (by rw [q3, hreg])
  have hdone : ∀ n, n ∈ 0 :: getConstant true :: N.inputs → n = 0 ∨ n = 1 ∨ n ∈ N.inputs := by
    intro n hn; simpa [getConstant] using hn
  have m0 : m 0 = 0 := by
    rw [hm1 0 (fun h => by have := (hN.inputs 0 h).1; omega)]; rfl
  have m1 : m 1 = 1 := by
    rw [hm1 1 (fun h => by have := (hN.inputs 1 h).1; omega)]; rfl
  have hleaf : ∀ n ∈ N.inputs, ∃ k : Nat, N.inputs[k]? = some n ∧ q.1.inputs[k]? = some (m n) := by
    intro n hn
    obtain ⟨k, hk⟩ := List.mem_iff_getElem?.1 hn
    have hkl := (List.getElem?_eq_some_iff.1 hk).1
    obtain ⟨s, hs⟩ : ∃ s, q.2[k]? = some s := ⟨_, List.getElem?_eq_getElem (by rw [q3, hreg]; exact hkl)⟩
    exact ⟨k, hk, by rw [q2', hs, hm2 k n s hk hs]⟩
  have hclean : Clean N q.1 (0 :: getConstant true :: N.inputs) q.1 m := by
    refine ⟨q1, rfl, rfl, rfl, rfl, rfl, ?_, fun n cs f hl => absurd hl (nolut n cs f),
      fun _ _ n cs f hl => absurd hl (nolut n cs f), ?_, ?_⟩
    · intro n
      by_cases hn : n ∈ N.inputs
      · obtain ⟨k, _, hk⟩ := hleaf n hn
        exact (q1.wf.inputs _ (List.mem_of_getElem? hk)).2
      · rw [hm1 n hn]
        have := q1.wf.len
        have hle : NodeMap.set (NodeMap.set (fun _ => 0) (getConstant false) (getConstant false))
            (getConstant true) (getConstant true) n ≤ 1 := by
          simp only [NodeMap.set, getConstant]
          repeat' split
          all_goals omega
        omega
    · intro x v w hv hw n hn
      rcases hdone n hn with rfl | rfl | hn
      · rw [m0, hw.const0, hv.const0]
      · rw [m1, hw.const1, hv.const1]
      · obtain ⟨k, hk, hk'⟩ := hleaf n hn
        rw [hw.input k _ hk', hv.input k n hk]
    · intro ℓ _
      exact ⟨fun _ => 0, fun n cs f hl => absurd hl (nolut n cs f), fun _ _ => Nat.zero_le _⟩
  have hrest : ∀ n ∈ rest, 2 ≤ n ∧ n < N.nodes.length ∧ n ∉ N.inputs := by
    intro n hn
    have hmo : n ∈ s.order := by rw [eo]; simp [hn]
    rw [eo] at nd
    have hdis := (List.nodup_append.1 nd).2.2
    have hn0 : n ∉ 0 :: getConstant true :: N.inputs := fun h => hdis n (by simpa using h) n hn rfl
    have hn1 : n ≠ 0 ∧ n ≠ 1 ∧ n ∉ N.inputs := by simpa [getConstant] using hn0
    refine ⟨by omega, ?_, hn1.2.2⟩
    rcases (hmem n).1 hmo with rfl | h | ⟨o, ho, ht⟩
    · exact absurd rfl hn1.1
    · exact absurd (List.mem_cons_of_mem _ h) hn0
    · have := ht.rank (topoFanins_ranked hN)
      have := hN.outputs o ho
      simp only [id] at *
      omega
  obtain ⟨D, m', e', hc', hl'⟩ := cleanLoop_spec hN hff rest (0 :: getConstant true :: N.inputs) q.1 m eo hrest hclean
  refine ⟨q.1, D, m', s.order, etopo, hc', by rw [q2', q3], by rw [q5]; rfl, by rw [q6]; simp [Klut.empty], by rw [q7]; rfl, by rw [q8]; rfl, ?_, ?_, ?_, ?_⟩
  · have hsub : s.order.length ≤ N.nodes.length := by
      have : s.order ⊆ List.range N.nodes.length := by
        intro n hn
        rw [List.mem_range]
        rw [eo] at hn
        have hlen := hN.len
        rcases List.mem_append.1 hn with hn | hn
        · rcases hdone n (by simpa using hn) with rfl | rfl | hn
          · omega
          · omega
          · exact (hN.inputs n hn).2
        · exact (hrest n hn).2.1
      have := (nd.subperm this).length_le
      simpa using this
    rw [eo] at hsub
    simp only [List.length_append, List.length_cons] at hsub
    rw [q4] at hl'
    simp only [Klut.empty, List.length_cons, List.length_nil] at hl'
    omega
  · rw [eo] at nd
    refine ⟨rest, (List.nodup_append.1 nd).2.1, ?_, ?_⟩
    · rw [q4] at hl'
      simp only [Klut.empty, List.length_cons, List.length_nil] at hl'
      omega
    · intro n hn
      obtain ⟨r1, r2, r3⟩ := hrest n hn
      refine ⟨r1, r2, r3, ?_⟩
      rcases (hmem n).1 (by rw [eo]; simp [hn]) with rfl | h | h
      · omega
      · rcases List.mem_cons.1 h with h | h
        · simp [getConstant] at h; omega
        · exact absurd h r3
      · exact h
  · intro o ho
    exact (hmem o).2 (Or.inr (Or.inr ⟨o, ho, Topo.Tfi.refl _⟩))
  · rw [cleanupLuts, hq, cleanupLutsImpl, htake, em, etopo]
    try dsimp only
    have hskip : ∀ n ∈ (0 :: getConstant true :: N.inputs), isConstant n = true ∨ N.isCi n = true := by
      intro n hn
      rcases hdone n hn with rfl | rfl | hn
      · left; rfl
      · left; rfl
      · right; exact hN.isCi.2 hn
    rw [eo, cleanLoop_skip N rest q.1 m _ hskip, e']

end Verif.Klut
