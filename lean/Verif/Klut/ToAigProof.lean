import Verif.Klut.ToAig
import Verif.Klut.Spec
import Verif.Aig.CleanupProof
import Verif.Props.AigBuild

set_option autoImplicit false

/-!
# Conversion to AIGs: helper lemmas
-/

namespace Verif.ToAig
open Aig (SigMap Grown GateSpec)
open Klut (args)

theorem literals_spec (m : SigMap) (leaves : List Nat) (c : Cube) : ∀ (k i : Nat), i + k = leaves.length →
    ∃ ls, literals m leaves c i k = some ls ∧ (∀ s ∈ ls, ∃ l, s = m l ∨ s = (m l).not) ∧
      ∀ v, ls.all (·.val v) = true ↔ ∀ j, i ≤ j → j < leaves.length → c.getMask j = true →
        args (fun n => (m n).val v) leaves j = c.getBit j := by
  intro k
  induction k with
  | zero =>
    intro i hi
    refine ⟨[], rfl, by simp, ?_⟩
    intro v
    simp only [List.all_nil, true_iff]
    intro j h1 h2; omega
  | succ k ih =>
    intro i hi
    obtain ⟨ls, e, h1, h2⟩ := ih (i + 1) (by omega)
    obtain ⟨l, hl⟩ : ∃ l, leaves[i]? = some l := ⟨_, List.getElem?_eq_getElem (by omega)⟩
    rw [literals]
    by_cases hm : c.getMask i = true
    · rw [if_pos hm, hl, e]
      refine ⟨_, rfl, ?_, ?_⟩
      · intro s hs
        rcases List.mem_cons.1 hs with rfl | hs
        · refine ⟨l, ?_⟩
          split
          · exact Or.inl rfl
          · exact Or.inr rfl
        · exact h1 s hs
      · intro v
        have ha : args (fun n => (m n).val v) leaves i = (m l).val v := by rw [args, hl]
        have hs : Sig.val v (if c.getBit i = true then m l else (m l).not) = true ↔ (m l).val v = c.getBit i := by
          cases c.getBit i <;> simp
        rw [List.all_cons, Bool.and_eq_true, h2 v, hs]
        constructor
        · rintro ⟨a, b⟩ j hj1 hj2 hj3
          by_cases e : j = i
          · subst e; rw [ha]; exact a
          · exact b j (by omega) hj2 hj3
        · intro h
          refine ⟨by rw [← ha]; exact h i (Nat.le_refl _) (by omega) hm, ?_⟩
          intro j hj1; exact h j (by omega)
    · rw [if_neg hm]
      refine ⟨ls, e, h1, ?_⟩
      intro v
      rw [h2 v]
      constructor
      · intro h j hj1 hj2 hj3
        by_cases e : j = i
        · subst e; exact absurd hj3 hm
        · exact h j (by omega) hj2 hj3
      · intro h j hj1; exact h j (by omega)

theorem naryAnd_spec {N : Aig} (h : Aig.WF N) {fs : List Sig} (hfs : ∀ s ∈ fs, N.Valid s) :
    GateSpec N (fun v => fs.all (·.val v)) (N.createNaryAnd fs) :=
  (Aig.treeReduce_spec Aig.createAnd (· && ·) true Bool.and_assoc (by simp) (by simp)
    (fun h _ _ ha hb => Aig.createAnd_spec h ha hb) fs.length fs le_rfl h hfs).mono fun v _ => Aig.foldr_and _ fs

theorem naryOr_spec {N : Aig} (h : Aig.WF N) {fs : List Sig} (hfs : ∀ s ∈ fs, N.Valid s) :
    GateSpec N (fun v => fs.any (·.val v)) (N.createNaryOr fs) :=
  (Aig.treeReduce_spec Aig.createOr (· || ·) false Bool.or_assoc (by simp) (by simp)
    (fun h _ _ ha hb => Aig.createOr_spec h ha hb) fs.length fs le_rfl h hfs).mono fun v _ => Aig.foldr_or _ fs

theorem products_spec (m : SigMap) (leaves : List Nat) (h32 : leaves.length ≤ 32) : ∀ (cs : List Cube) (D : Aig),
    (∀ c ∈ cs, c.Below leaves.length) → Aig.WF D → (∀ n, D.Valid (m n)) →
    ∃ q, products m leaves leaves.length cs D = some q ∧ Grown D q.1 ∧ (∀ s ∈ q.2, q.1.Valid s) ∧
      ∀ v, q.1.Models v → q.2.any (·.val v) = cs.any (·.val (args (fun n => (m n).val v) leaves)) := by
  intro cs
  induction cs with
  | nil => intro D _ hD _; exact ⟨_, rfl, .refl hD, by simp, by simp⟩
  | cons c cs ih =>
    intro D hb hD hm
    obtain ⟨ls, e, h1, h2⟩ := literals_spec m leaves c leaves.length 0 (by omega)
    have hv : ∀ s ∈ ls, D.Valid s := by
      intro s hs
      obtain ⟨l, rfl | rfl⟩ := h1 s hs
      · exact hm l
      · exact hm l
    have sp := naryAnd_spec hD hv
    obtain ⟨q, e', g, hq, hq'⟩ := ih (D.createNaryAnd ls).1 (fun d hd => hb d (by simp [hd])) sp.wf
      (fun n => sp.ext.valid (hm n))
    refine ⟨(q.1, (D.createNaryAnd ls).2 :: q.2), by rw [products, e]; dsimp only; rw [e'], sp.grown.trans g, ?_, ?_⟩
    · intro s hs
      rcases List.mem_cons.1 hs with rfl | hs
      · exact g.ext.valid sp.valid
      · exact hq s hs
    · intro v hv'
      rw [List.any_cons, List.any_cons, hq' v hv', sp.val v (g.ext.models hv')]
      congr 1
      rw [Bool.eq_iff_iff, h2 v, Cube.val_iff]
      constructor
      · intro h i hi hm
        apply h i (Nat.zero_le _) _ hm
        by_contra hge
        rw [hb c (by simp) i (by omega)] at hm; cases hm
      · intro h i _ hi hm
        exact h i (by omega) hm

/-- a cell whose function has one variable per leaf -/
structure CellWF (c : Cell) : Prop where
  wf : c.fn.WF
  arity : c.fn.n = c.leaves.length
  small : c.leaves.length ≤ 32

theorem buildCell_spec (m : SigMap) (c : Cell) (hc : CellWF c) (D : Aig) (hD : Aig.WF D) (hm : ∀ n, D.Valid (m n)) :
    ∃ r, buildCell m c D = some r ∧ GateSpec D (fun v => c.fn.eval (args (fun n => (m n).val v) c.leaves)) r := by
  obtain ⟨cs, e, h1, h2⟩ := TT.isop_spec c.fn hc.wf (by rw [hc.arity]; exact hc.small)
  rw [hc.arity] at h2
  obtain ⟨q, e', g, hq, hq'⟩ := products_spec m c.leaves hc.small cs D h2 hD hm
  have so := naryOr_spec g.wf hq
  refine ⟨_, by rw [buildCell, e]; dsimp only; rw [hc.arity, e'], ?_⟩
  have go := g.trans so.grown
  exact ⟨go.wf, go.ext, so.valid, fun v hv => by rw [so.val v hv, hq' v (so.ext.models hv), h1], go.inputs, go.outputs,
    go.numPis, go.numPos, go.latches, go.built⟩

/-- every leaf is a base node or the root of an earlier cell -/
def Ordered (base : Nat → Prop) (cells : List Cell) : Prop :=
  ∀ pre c post, cells = pre ++ c :: post → ∀ l ∈ c.leaves, base l ∨ ∃ d ∈ pre, d.root = l

/-- state of the conversion after the cells `done` -/
structure Made (D0 : Aig) (good : (Nat → Bool) → (Nat → Bool) → Prop) (base : Nat → Prop) (done : List Cell) (D : Aig)
    (m : SigMap) : Prop where
  grown : Grown D0 D
  valid : ∀ n, D.Valid (m n)
  val : ∀ v v', good v v' → D.Models v' → ∀ n, (base n ∨ ∃ d ∈ done, d.root = n) → (m n).val v' = v n

theorem buildCells_spec {D0 : Aig} {good : (Nat → Bool) → (Nat → Bool) → Prop} {base : Nat → Prop} {cells : List Cell}
    (hw : ∀ c ∈ cells, CellWF c) (ho : Ordered base cells)
    (hgood : ∀ v v', good v v' → ∀ c ∈ cells, v c.root = c.fn.eval (args v c.leaves)) :
    ∀ (rest done : List Cell) (D : Aig) (m : SigMap), cells = done ++ rest → Made D0 good base done D m →
      ∃ D' m', buildCells rest D m = some (D', m') ∧ Made D0 good base cells D' m' := by
  intro rest
  induction rest with
  | nil => intro done D m e h; exact ⟨D, m, rfl, by rw [e, List.append_nil]; exact h⟩
  | cons c rest ih =>
    intro done D m e h
    have hc : c ∈ cells := by rw [e]; simp
    obtain ⟨r, er, sp⟩ := buildCell_spec m c (hw c hc) D h.grown.wf h.valid
    rw [buildCells, er]
    refine ih (done ++ [c]) r.1 (m.set c.root r.2) (by simp [e]) ⟨h.grown.trans sp.grown, ?_, ?_⟩
    · intro n
      unfold SigMap.set
      split
      · exact sp.valid
      · exact sp.ext.valid (h.valid n)
    · intro v v' hg hv n hn
      have hold := h.val v v' hg (sp.ext.models hv)
      unfold SigMap.set
      split
      · rename_i e'
        rw [sp.val v' hv, e', hgood v v' hg c hc]
        apply TT.eval_congr
        intro j hj
        unfold args
        rw [(hw c hc).arity] at hj
        rw [List.getElem?_eq_getElem hj]
        exact hold _ (ho done c rest e _ (List.getElem_mem hj))
      · rename_i e'
        apply hold
        rcases hn with hn | ⟨d, hd, rfl⟩
        · exact Or.inl hn
        · rw [List.mem_append, List.mem_singleton] at hd
          rcases hd with hd | rfl
          · exact Or.inr ⟨d, hd, rfl⟩
          · exact absurd rfl e'

/-- conversion of a list of cells over given inputs: inputs, cells, outputs -/
theorem convert_spec (numPis : Nat) (ins : List Nat) (hins : ins.Nodup) (hlen : ins.length = numPis) (m0 : SigMap)
    (hm0 : ∀ n, (m0 n).index = 0) (cells : List Cell) (hw : ∀ c ∈ cells, CellWF c) (base : Nat → Prop)
    (ho : Ordered (fun n => base n ∨ n ∈ ins) cells) (hbi : ∀ n, base n → n ∉ ins) :
    ∃ m D m', Aig.mapLeaves ins (Aig.cloneInputs numPis Aig.empty).2 m0 = some m ∧
      buildCells cells (Aig.cloneInputs numPis Aig.empty).1 m = some (D, m') ∧ Aig.Built D ∧ D.numPis = numPis ∧
      D.inputs.length = numPis ∧ D.outputs = [] ∧ D.numPos = 0 ∧ (∀ n, D.Valid (m' n)) ∧
      ∀ x v v', (∀ n, base n → v n = (m0 n).compl) → (∀ (k n : Nat), ins[k]? = some n → v n = x k) →
        (∀ c ∈ cells, v c.root = c.fn.eval (args v c.leaves)) → D.Consistent x v' →
        ∀ n, (base n ∨ n ∈ ins ∨ ∃ c ∈ cells, c.root = n) → (m' n).val v' = v n := by
  obtain ⟨h1, h2, h3, h4, h5, h6, _, h7, h8, h9, h10⟩ := Aig.cloneInputs_spec numPis Aig.empty .empty rfl
  have i0 : Aig.empty.inputs.length = 0 := rfl
  have i1 : Aig.empty.numPis = 0 := rfl
  rw [i0] at h4 h10
  rw [i1] at h3
  obtain ⟨m, e0, g1, g2⟩ := Aig.mapLeaves_spec ins (Aig.cloneInputs numPis Aig.empty).2 m0 hins (by rw [h2, hlen])
  generalize hL : Aig.cloneInputs numPis Aig.empty = L at *
  have hleaf : ∀ n ∈ ins, ∃ (k : Nat) (s : Sig), ins[k]? = some n ∧ L.2[k]? = some s ∧ m n = s := by
    intro n hn
    obtain ⟨k, hk⟩ := List.getElem?_of_mem hn
    have hkl : k < L.2.length := by have := Aig.lt_of_getElem? hk; omega
    exact ⟨k, _, hk, List.getElem?_eq_getElem hkl, g2 k n _ hk (List.getElem?_eq_getElem hkl)⟩
  let good : (Nat → Bool) → (Nat → Bool) → Prop := fun v v' =>
    (∀ n, base n → v n = (m0 n).compl) ∧ (∀ (k n : Nat) (s : Sig), ins[k]? = some n → L.2[k]? = some s → v n = s.val v') ∧
    (∀ c ∈ cells, v c.root = c.fn.eval (args v c.leaves))
  have hM0 : Made L.1 good (fun n => base n ∨ n ∈ ins) [] L.1 m := by
    constructor
    · exact .refl h1.wf
    · intro n
      by_cases hn : n ∈ ins
      · obtain ⟨k, s, _, hs, e⟩ := hleaf n hn
        rw [e]; exact (h9 s (List.mem_of_getElem? hs)).1
      · rw [g1 n hn]
        have := h1.wf.pos
        simp only [Aig.Valid, hm0 n]
        exact this
    · rintro v v' ⟨hb, hi, _⟩ hv n hn
      rcases hn with (hn | hn) | ⟨d, hd, _⟩
      · rw [g1 n (hbi n hn), hb n hn, Sig.val, hm0 n, hv.const]; simp
      · obtain ⟨k, s, hk, hs, e⟩ := hleaf n hn
        rw [e, hi k n s hk hs]
      · simp at hd
  obtain ⟨D, m', e1, hM⟩ := buildCells_spec (D0 := L.1) (good := good) hw ho (fun v v' h => h.2.2) cells [] L.1 m rfl hM0
  refine ⟨m, D, m', e0, e1, hM.grown.built h1, by rw [hM.grown.numPis, h3]; omega, by rw [hM.grown.inputs, h4]; omega,
    by rw [hM.grown.outputs, h5]; rfl, by rw [hM.grown.numPos, h6]; rfl, hM.valid, ?_⟩
  intro x v v' hb hi hcs hc n hn
  apply hM.val v v' ⟨hb, ?_, hcs⟩ hc.models n
  · rcases hn with hn | hn | hn
    · exact Or.inl (Or.inl hn)
    · exact Or.inl (Or.inr hn)
    · exact Or.inr hn
  · intro k n s hk hs
    have h11 := h10 k s hs
    rw [Nat.zero_add] at h11
    have h12 := hc.input k s.index (by rw [hM.grown.inputs]; exact h11)
    have h13 := (h9 s (List.mem_of_getElem? hs)).2
    rw [hi k n hk]
    simp [Sig.val, h13, h12]

end Verif.ToAig
