import Verif.Balance.Sop
import Verif.Cut.KindProof
import Verif.Aig.CleanupProof
import Verif.Mapping.CoverProof
import Mathlib.Data.Fintype.Card

set_option autoImplicit false

/-!
# SOP balancing: helper lemmas
-/

namespace Verif.SopBalance
open Cuts
open Aig (Grown GateSpec)
open RefDeref (aigKids)
open Topo (Tfi FaninsFirst)

/-! ### the queue -/

theorem pop_spec (sel : List Arr → Nat) {q : List Arr} (h : q ≠ []) :
    ∃ a q', pop sel q = some (a, q') ∧ q.Perm (a :: q') := by
  have hl : 0 < q.length := List.length_pos_of_ne_nil h
  have hi : sel q % q.length < q.length := Nat.mod_lt _ hl
  refine ⟨q[sel q % q.length], q.eraseIdx (sel q % q.length), ?_, (List.getElem_cons_eraseIdx_perm hi).symm⟩
  rw [pop, List.getElem?_eq_getElem hi]

/-- the operation of a tree -/
def opVal (isAnd : Bool) (q : List Arr) (v : Nat → Bool) : Bool :=
  if isAnd then q.all (·.f.val v) else q.any (·.f.val v)

theorem opVal_perm {isAnd : Bool} {q q' : List Arr} (h : q.Perm q') (v : Nat → Bool) : opVal isAnd q v = opVal isAnd q' v := by
  unfold opVal
  split
  · exact h.all_eq
  · exact h.any_eq

theorem balancedTree_spec (sel : List Arr → Nat) (isAnd : Bool) : ∀ (k : Nat) (D : Aig) (q : List Arr), q.length < k →
    Aig.WF D → (∀ a ∈ q, D.Valid a.f) → ∃ D' a, balancedTree sel isAnd k D q = some (D', a) ∧ Grown D D' ∧ D'.Valid a.f ∧
      (∀ v, D'.Models v → a.f.val v = if q = [] then true else opVal isAnd q v) ∧
      ∀ B, (∀ a ∈ q, a.level ≤ B) → a.level ≤ B + q.length := by
  intro k
  induction k with
  | zero => intro D q h; omega
  | succ k ih =>
    intro D q hk hD hq
    match q, hk, hq with
    | [], _, _ =>
      refine ⟨D, _, rfl, .refl hD, hD.pos, ?_, ?_⟩
      · intro v hv; simp [Sig.val, hv.const]
      · intro B _; exact Nat.zero_le _
    | [a], _, hq =>
      refine ⟨D, a, rfl, .refl hD, hq a (by simp), ?_, ?_⟩
      · intro v _
        rw [if_neg (by simp)]
        cases isAnd <;> simp [opVal]
      · intro B h; have := h a (by simp); omega
    | a0 :: b0 :: q0, hk, hq =>
      rw [balancedTree]
      generalize hqq : a0 :: b0 :: q0 = q at *
      have hl2 : 2 ≤ q.length := by rw [← hqq]; simp
      obtain ⟨a, q1, e1, p1⟩ := pop_spec sel (q := q) (by rw [← hqq]; simp)
      have l1 := p1.length_eq
      rw [List.length_cons] at l1
      obtain ⟨b, q2, e2, p2⟩ := pop_spec sel (q := q1) (by intro e; rw [e] at l1; simp at l1; omega)
      have l2 := p2.length_eq
      rw [List.length_cons] at l2
      have pp : q.Perm (a :: b :: q2) := p1.trans (List.Perm.cons _ p2)
      rw [e1]; dsimp only
      rw [e2]; dsimp only
      have ha := hq a (pp.mem_iff.2 (by simp))
      have hb := hq b (pp.mem_iff.2 (by simp))
      have hs : GateSpec D (fun v => if isAnd then a.f.val v && b.f.val v else a.f.val v || b.f.val v)
          (if isAnd then D.createAnd a.f b.f else D.createOr a.f b.f) := by
        cases isAnd
        · exact Aig.createOr_spec hD ha hb
        · exact Aig.createAnd_spec hD ha hb
      generalize hr : (if isAnd then D.createAnd a.f b.f else D.createOr a.f b.f) = r at *
      obtain ⟨D', c, e, h1, h2, h3, h4⟩ := ih r.1 (⟨r.2, (max a.level b.level + 1) % 4294967296⟩ :: q2)
        (by rw [List.length_cons]; omega) hs.wf (by
          intro d hd
          rcases List.mem_cons.1 hd with rfl | hd
          · exact hs.valid
          · exact hs.ext.valid (hq d (pp.mem_iff.2 (by simp [hd]))))
      refine ⟨D', c, e, hs.grown.trans h1, h2, ?_, ?_⟩
      · intro v hv
        have hne : q ≠ [] := by rw [← hqq]; simp
        rw [h3 v hv, if_neg (by simp), if_neg hne, opVal_perm pp]
        have := hs.val v (h1.ext.models hv)
        cases isAnd <;> simp [opVal, this, Bool.and_assoc, Bool.or_assoc]
      · intro B hB
        have h5 := h4 (B + 1) (by
          intro d hd
          rcases List.mem_cons.1 hd with rfl | hd
          · have hA := hB a (pp.mem_iff.2 (by simp))
            have hB' := hB b (pp.mem_iff.2 (by simp))
            exact Nat.le_trans (Nat.mod_le _ _) (by show max a.level b.level + 1 ≤ _; omega)
          · have := hB d (pp.mem_iff.2 (by simp [hd])); omega)
        rw [List.length_cons] at h5
        omega

/-! ### cubes -/

theorem literals_spec (m : ArrMap) (leaves : List Nat) (c : Cube) : ∀ (k i : Nat), i + k = leaves.length →
    ∃ ls, literals (leaves.map m) c i k = some ls ∧ ls.length ≤ k ∧
      (∀ a ∈ ls, ∃ l ∈ leaves, (a.f = (m l).f ∨ a.f = (m l).f.not) ∧ a.level = (m l).level) ∧
      ∀ v, ls.all (·.f.val v) = true ↔ ∀ j, i ≤ j → j < leaves.length → c.getMask j = true →
        leafVal leaves (fun n => (m n).f.val v) j = c.getBit j := by
  intro k
  induction k with
  | zero =>
    intro i hi
    refine ⟨[], rfl, Nat.le_refl _, by simp, ?_⟩
    intro v
    simp only [List.all_nil, true_iff]
    intro j h1 h2; omega
  | succ k ih =>
    intro i hi
    obtain ⟨ls, e, h0, h1, h2⟩ := ih (i + 1) (by omega)
    obtain ⟨l, hl⟩ : ∃ l, leaves[i]? = some l := ⟨_, List.getElem?_eq_getElem (by omega)⟩
    rw [literals]
    by_cases hm : c.getMask i = true
    · rw [if_pos hm, List.getElem?_map, hl, e]
      refine ⟨_, rfl, by rw [List.length_cons]; omega, ?_, ?_⟩
      · intro s hs
        rcases List.mem_cons.1 hs with rfl | hs
        · refine ⟨l, List.mem_of_getElem? hl, ?_, rfl⟩
          dsimp only
          split
          · exact Or.inl rfl
          · exact Or.inr rfl
        · exact h1 s hs
      · intro v
        have ha : leafVal leaves (fun n => (m n).f.val v) i = (m l).f.val v := by rw [leafVal, hl]
        have hs : Sig.val v (if c.getBit i = true then (m l).f else (m l).f.not) = true ↔ (m l).f.val v = c.getBit i := by
          cases c.getBit i <;> simp
        rw [List.all_cons, Bool.and_eq_true, h2 v, hs]
        constructor
        · rintro ⟨a, b⟩ j hj1 hj2 hj3
          by_cases e : j = i
          · subst e; rw [ha]; exact a
          · exact b j (by omega) hj2 hj3
        · intro h
          refine ⟨by rw [← ha]; exact h i (Nat.le_refl _) (by omega) hm, ?_⟩
          intro j hj1; exact h j (by omega)
    · rw [if_neg hm]
      refine ⟨ls, e, by omega, h1, ?_⟩
      intro v
      rw [h2 v]
      constructor
      · intro h j hj1 hj2 hj3
        by_cases e : j = i
        · subst e; exact absurd hj3 hm
        · exact h j (by omega) hj2 hj3
      · intro h j hj1; exact h j (by omega)

theorem products_spec (sel : List Arr → Nat) (m : ArrMap) (leaves : List Nat) (h32 : leaves.length ≤ 32) : ∀ (cs : List Cube) (D : Aig),
    (∀ c ∈ cs, c.Below leaves.length) → Aig.WF D → (∀ n, D.Valid (m n).f) →
    ∃ D' ts g, products sel (leaves.map m) leaves.length cs D = some (D', ts, g) ∧ Grown D D' ∧ (∀ a ∈ ts, D'.Valid a.f) ∧
      ts.length = cs.length ∧
      (∀ v, D'.Models v → ts.any (·.f.val v) = cs.any (·.val (leafVal leaves fun n => (m n).f.val v))) ∧
      ∀ B, (∀ l ∈ leaves, (m l).level ≤ B) → ∀ a ∈ ts, a.level ≤ B + leaves.length := by
  intro cs
  induction cs with
  | nil => intro D _ hD _; exact ⟨D, [], 0, rfl, .refl hD, by simp, rfl, by simp, by simp⟩
  | cons c cs ih =>
    intro D hb hD hm
    obtain ⟨ls, e, h0, h1, h2⟩ := literals_spec m leaves c leaves.length 0 (by omega)
    have hv : ∀ s ∈ ls, D.Valid s.f := by
      intro s hs
      obtain ⟨l, _, h | h, _⟩ := h1 s hs
      · rw [h]; exact hm l
      · rw [h]; exact hm l
    obtain ⟨D1, a, e1, g1, a1, a2, a3⟩ := balancedTree_spec sel true (ls.length + 1) D ls (by omega) hD hv
    obtain ⟨D2, ts, g, e2, g2, t1, t2, t3, t4⟩ := ih D1 (fun d hd => hb d (by simp [hd])) g1.wf (fun n => g1.ext.valid (hm n))
    refine ⟨D2, a :: ts, _, by rw [products, e]; dsimp only; rw [e1]; dsimp only; rw [e2], g1.trans g2, ?_, by simp [t2], ?_, ?_⟩
    · intro s hs
      rcases List.mem_cons.1 hs with rfl | hs
      · exact g2.ext.valid a1
      · exact t1 s hs
    · intro v hv'
      rw [List.any_cons, List.any_cons, t3 v hv', a2 v (g2.ext.models hv')]
      congr 1
      have hor : (if ls = [] then true else opVal true ls v) = ls.all (·.f.val v) := by
        split
        · rename_i e; rw [e]; rfl
        · rfl
      rw [hor, Bool.eq_iff_iff, h2 v, Cube.val_iff]
      constructor
      · intro h i hi hm
        apply h i (Nat.zero_le _) _ hm
        by_contra hge
        rw [hb c (by simp) i (by omega)] at hm; cases hm
      · intro h i _ hi hm
        exact h i (by omega) hm
    · intro B hB d hd
      rcases List.mem_cons.1 hd with rfl | hd
      · have := a3 B (by
          intro x hx
          obtain ⟨l, hl, _, h⟩ := h1 x hx
          rw [h]; exact hB l hl)
        omega
      · exact t4 B hB d hd

/-- an irredundant sum of products has at most as many cubes as the table has entries -/
theorem isop_length {t : TT} (h : t.WF) (h32 : t.n ≤ 32) {cs : List Cube} (e : t.isop = some cs) : cs.length ≤ 2 ^ t.n := by
  have hir := TT.isop_irredundant t h h32 e
  obtain ⟨cs', e', _, hb⟩ := TT.isop_spec t h h32
  rw [e] at e'
  obtain rfl := Option.some.inj e'
  have hx : ∀ i : Fin cs.length, ∃ x : Nat → Bool, (cs[i]).val x = true ∧
      ∀ (j : Nat) d, cs[j]? = some d → d.val x = true → j = i.1 := by
    intro i
    obtain ⟨x, _, h2, h3⟩ := hir i.1 _ (List.getElem?_eq_getElem i.2)
    exact ⟨x, h2, h3⟩
  choose x hx1 hx2 using hx
  have hpos : ∀ y : Nat → Bool, TT.pos y t.n < 2 ^ t.n := fun y => TT.pos_lt y t.n
  have hinj : Function.Injective fun i : Fin cs.length => (⟨TT.pos (x i) t.n, hpos _⟩ : Fin (2 ^ t.n)) := by
    intro i j hij
    have hp : TT.pos (x i) t.n = TT.pos (x j) t.n := by simpa using hij
    have hagree : ∀ k, k < t.n → x i k = x j k := by
      intro k hk
      rw [← TT.testBit_pos (x i) _ _ hk, ← TT.testBit_pos (x j) _ _ hk, hp]
    have hval : (cs[j]).val (x i) = true := by
      have hj := hx1 j
      rw [Cube.val_iff] at hj ⊢
      intro k hk hmk
      have hkn : k < t.n := by
        by_contra hge
        have := hb _ (List.getElem_mem j.2) k (by omega)
        rw [show cs[j].getMask k = false from this] at hmk; cases hmk
      rw [hagree k hkn]; exact hj k hk hmk
    exact Fin.ext (hx2 i j.1 _ (List.getElem?_eq_getElem j.2) hval).symm
  have := Fintype.card_le_of_injective _ hinj
  simpa using this

theorem rebalance_spec (sel : List Arr → Nat) (m : ArrMap) (leaves : List Nat) (h7 : leaves.length ≤ 7) {t : TT} (ht : t.WF)
    (hn : t.n = leaves.length) (h0 : t.isConst0 = false) {D : Aig} (hD : Aig.WF D) (hm : ∀ n, D.Valid (m n).f) (b : Best) :
    ∃ D' cand g, rebalance sel D t (leaves.map m) b = some (D', if cand.level < b.arr.level ∨ (cand.level = b.arr.level ∧
        g < b.size) then ⟨cand, g⟩ else b) ∧ Grown D D' ∧ D'.Valid cand.f ∧
      (∀ v, D'.Models v → cand.f.val v = t.eval (leafVal leaves fun n => (m n).f.val v)) ∧
      ∀ B, (∀ l ∈ leaves, (m l).level ≤ B) → cand.level ≤ B + 135 := by
  obtain ⟨cs, e, c1, c2⟩ := TT.isop_spec t ht (by omega)
  have hlen := isop_length ht (by omega) e
  have h128 : cs.length ≤ 128 := by
    refine Nat.le_trans hlen ?_
    exact Nat.le_trans (Nat.pow_le_pow_right (by omega) (show t.n ≤ 7 by omega)) (by decide)
  rw [hn] at c2
  obtain ⟨D1, ts, g, e1, g1, t1, t2, t3, t4⟩ := products_spec sel m leaves (by omega) cs D c2 hD hm
  obtain ⟨D2, a, e2, g2, a1, a2, a3⟩ := balancedTree_spec sel false (ts.length + 1) D1 ts (by omega) g1.wf t1
  have hne : cs ≠ [] := by
    rintro rfl
    have := (TT.isConst0_iff ht).2 (fun x => by rw [← c1 x]; rfl)
    rw [h0] at this; cases this
  have hts : ts ≠ [] := by
    intro e; rw [e] at t2; exact hne (List.length_eq_zero_iff.1 t2.symm)
  refine ⟨D2, a, g + (ts.length - 1), ?_, g1.trans g2, a1, ?_, ?_⟩
  · rw [rebalance, e]
    dsimp only
    rw [hn, e1]
    dsimp only
    rw [e2]
    dsimp only
    split <;> rfl
  · intro v hv
    rw [a2 v hv, if_neg hts, ← c1]
    exact t3 v (g2.ext.models hv)
  · intro B hB
    have := a3 (B + leaves.length) (t4 B hB)
    omega

/-! ### one node -/

/-- a correct entry for node `n` -/
structure Entry (good : (Nat → Bool) → (Nat → Bool) → Prop) (D : Aig) (n : Nat) (a : Arr) : Prop where
  valid : D.Valid a.f
  level : a.level ≤ 135 * n
  val : ∀ v v', good v v' → D.Models v' → a.f.val v' = v n

theorem Entry.mono {good : (Nat → Bool) → (Nat → Bool) → Prop} {D D' : Aig} {n : Nat} {a : Arr} (h : Entry good D n a)
    (g : Grown D D') : Entry good D' n a :=
  ⟨g.ext.valid h.valid, h.level, fun v v' hg hv => h.val v v' hg (g.ext.models hv)⟩

/-- what is known about a cut of node `n` when the nodes in `done` have entries -/
structure CutFit (good : (Nat → Bool) → (Nat → Bool) → Prop) (cache : TTCache) (done : List Nat) (n : Nat) (c : Cut (FData Unit)) : Prop where
  kind : c.leaves = [n] ∨ (2 ≤ c.leaves.length ∧ ∀ x ∈ c.leaves, x < n ∧ x ∈ done)
  small : c.leaves.length ≤ 7
  table : ∃ t, cache.lookup c.data.func = some t ∧ t.WF ∧ t.n = c.leaves.length ∧
    ∀ v v', good v v' → v n = t.eval (leafVal c.leaves v)

/-- the cut is passed over, balancing.hpp 158-161 -/
def Skipped (cache : TTCache) (c : Cut (FData Unit)) : Prop :=
  ∃ t, cache.lookup c.data.func = some t ∧ (c.leaves.length = 1 ∨ t.isConst0 = true)

theorem cutLoop_spec (sel : List Arr → Nat) {good : (Nat → Bool) → (Nat → Bool) → Prop} {cache : TTCache} {done : List Nat} {n : Nat}
    (hn0 : n ≠ 0) (hsize : 135 * n < 4294967295) {m : ArrMap} : ∀ (cs : List (Cut (FData Unit))) (D : Aig) (b : Best),
    (∀ c ∈ cs, CutFit good cache done n c) → Aig.WF D → (∀ n, D.Valid (m n).f) → (∀ x ∈ done, Entry good D x (m x)) →
    (Entry good D n b.arr ∨ b.arr.level = 4294967295) →
    ∃ D' b', cutLoop sel cache m cs D b = some (D', b') ∧ Grown D D' ∧
      (Entry good D' n b'.arr ∨ (b' = b ∧ ∀ c ∈ cs, Skipped cache c)) := by
  intro cs
  induction cs with
  | nil =>
    intro D b _ hD _ _ _
    exact ⟨D, b, rfl, .refl hD, Or.inr ⟨rfl, by simp⟩⟩
  | cons c cs ih =>
    intro D b hcs hD hm hd hb
    obtain ⟨t, t1, t2, t3, t4⟩ := (hcs c (by simp)).table
    have hsm := (hcs c (by simp)).small
    rw [cutLoop, t1]
    dsimp only
    by_cases hsk : c.leaves.length = 1 ∨ t.isConst0 = true
    · rw [if_pos hsk]
      obtain ⟨D', b', e, g, h⟩ := ih D b (fun x hx => hcs x (by simp [hx])) hD hm hd hb
      refine ⟨D', b', e, g, h.imp id fun ⟨h1, h2⟩ => ⟨h1, ?_⟩⟩
      intro x hx
      rcases List.mem_cons.1 hx with rfl | hx
      · exact ⟨t, t1, hsk⟩
      · exact h2 x hx
    · rw [if_neg hsk]
      simp only [not_or, Bool.not_eq_true] at hsk
      obtain ⟨D1, cand, g, e1, g1, v1, v2, v3⟩ := rebalance_spec sel m c.leaves hsm t2 t3 hsk.2 hD hm b
      rw [e1]
      dsimp only
      have hk : 2 ≤ c.leaves.length ∧ ∀ x ∈ c.leaves, x < n ∧ x ∈ done := by
        rcases (hcs c (by simp)).kind with h | h
        · exact absurd (by rw [h]; rfl) hsk.1
        · exact h
      have hlev := v3 (135 * (n - 1)) (fun l hl => by
        have h1 := hk.2 l hl
        have h2 := (hd l h1.2).level
        have : 135 * l ≤ 135 * (n - 1) := Nat.mul_le_mul_left _ (by omega)
        omega)
      have hlev' : cand.level ≤ 135 * n := by omega
      have hcand : Entry good D1 n cand := by
        refine ⟨v1, hlev', ?_⟩
        intro v v' hg hv
        rw [v2 v' hv, t4 v v' hg]
        apply TT.eval_congr
        intro j hj
        rw [t3] at hj
        unfold leafVal
        rw [List.getElem?_eq_getElem hj]
        exact (hd _ (hk.2 _ (List.getElem_mem hj)).2).val v v' hg (g1.ext.models hv)
      have hnew : Entry good D1 n (if cand.level < b.arr.level ∨ (cand.level = b.arr.level ∧ g < b.size) then
          (⟨cand, g⟩ : Best) else b).arr := by
        split
        · exact hcand
        · rename_i hnot
          rcases hb with hb | hb
          · exact hb.mono g1
          · exact absurd (Or.inl (by omega)) hnot
      obtain ⟨D', b', e, g', h⟩ := ih D1 _ (fun x hx => hcs x (by simp [hx])) g1.wf (fun n => g1.ext.valid (hm n))
        (fun x hx => (hd x hx).mono g1) (Or.inl hnew)
      refine ⟨D', b', e, g1.trans g', Or.inl ?_⟩
      rcases h with h | ⟨h, _⟩
      · exact h
      · rw [h]; exact hnew.mono g'

/-! ### all nodes -/

/-- state after the nodes `done` -/
structure Balanced (good : (Nat → Bool) → (Nat → Bool) → Prop) (D0 : Aig) (done : List Nat) (D : Aig) (m : ArrMap) : Prop where
  grown : Grown D0 D
  valid : ∀ n, D.Valid (m n).f
  entry : ∀ n ∈ done, Entry good D n (m n)

theorem Balanced.step {good : (Nat → Bool) → (Nat → Bool) → Prop} {D0 : Aig} {done : List Nat} {D D' : Aig} {m : ArrMap}
    (h : Balanced good D0 done D m) (g : Grown D D') {n : Nat} {a : Arr} (ha : Entry good D' n a) :
    Balanced good D0 (done ++ [n]) D' (m.set n a) := by
  refine ⟨h.grown.trans g, ?_, ?_⟩
  · intro k
    unfold ArrMap.set
    split
    · exact ha.valid
    · exact g.ext.valid (h.valid k)
  · intro k hk
    unfold ArrMap.set
    split
    · rename_i e; rw [e]; exact ha
    · rename_i e
      rw [List.mem_append, List.mem_singleton] at hk
      exact (h.entry k (hk.resolve_right e)).mono g

theorem balanceNodes_spec (sel : List Arr → Nat) (off : Nat → Option Nat) (hoff : ∀ n l, off n = some l → l ≤ n) {N : Aig} (hN : N.Built)
    (hreg : N.numPis = N.inputs.length) {P : Params Unit} (hmin : P.minimize = false) (h2 : 2 ≤ P.cutSize)
    (hk : P.cutSize ≤ maxCutSize) (hl3 : 3 ≤ P.cutLimit) (hsf : SizeFirst P.lt) {st : CutNet Unit} (est : enumerate P N () = some st)
    (hsize : 135 * N.size ≤ 4294967295) {good : (Nat → Bool) → (Nat → Bool) → Prop}
    (hgood : ∀ v v', good v v' → ∃ x, N.Consistent x v) {D0 : Aig} {order : List Nat} (hff : FaninsFirst (aigKids N) order)
    (hmem : ∀ n ∈ order, n < N.nodes.length) (hin : ∀ (done : List Nat) n rest, order = done ++ n :: rest →
      (n = 0 ∨ n ∈ N.inputs) ∨ (∀ k, (k = 0 ∨ k ∈ N.inputs) → k ∈ done)) :
    ∀ (rest done : List Nat) (D : Aig) (m : ArrMap), order = done ++ rest → Balanced good D0 done D m →
      (∀ n, (n = 0 ∨ n ∈ N.inputs) → n ∉ done → Entry good D n (m n)) →
      ∃ D' m', balanceNodes sel off N st rest D m = some (D', m') ∧ Balanced good D0 order D' m' := by
  intro rest
  induction rest with
  | nil => intro done D m e h _; exact ⟨D, m, rfl, by rw [e]; simpa using h⟩
  | cons n rest ih =>
    intro done D m e h hci
    have hnl : n < N.nodes.length := hmem n (by rw [e]; simp)
    rw [balanceNodes, balanceNode]
    have hpi : (n = 0 ∨ N.isPi n = true) ↔ (n = 0 ∨ n ∈ N.inputs) := by
      refine or_congr_right' fun hn0 => ?_
      constructor
      · intro hp
        by_contra hnin
        obtain ⟨nd, hnd⟩ : ∃ nd, N.nodes[n]? = some nd := ⟨_, List.getElem?_eq_getElem hnl⟩
        have hgw := hN.wf.gate n nd hnd hn0 hnin
        have hg : N.IsGate n nd.c0 nd.c1 := ⟨hn0, hnin, nd, hnd, hgw.2.2.2, rfl, rfl⟩
        have := hg.not_ci hN.wf
        simp only [Aig.isPi, hnd, Aig.isCi] at hp this
        simp only [Bool.and_eq_true, beq_iff_eq, decide_eq_true_eq] at hp
        simp [hp.1] at this
      · intro hi
        obtain ⟨k, hk'⟩ := List.mem_iff_getElem?.1 hi
        obtain ⟨_, nd, hnd, e1, e2, _⟩ := hN.wf.input k n hk'
        have hlt := Aig.lt_of_getElem? hk'
        simp [Aig.isPi, hnd, e1, e2, hreg, hlt]
    by_cases hc : n = 0 ∨ N.isPi n = true
    · rw [if_pos hc]
      dsimp only
      rw [hpi] at hc
      refine ih (done ++ [n]) D m (by simp [e]) ⟨h.grown, h.valid, ?_⟩ ?_
      · intro k hk
        rw [List.mem_append, List.mem_singleton] at hk
        by_cases hkd : k ∈ done
        · exact h.entry k hkd
        · rcases hk with hk | rfl
          · exact absurd hk hkd
          · exact hci k hc hkd
      · intro k hk hkd
        exact hci k hk fun hm => hkd (by simp [hm])
    · rw [if_neg hc]
      have hcin : ∀ k, (k = 0 ∨ k ∈ N.inputs) → k ∈ done := by
        rcases hin done n rest e with h | h
        · rw [hpi] at hc; exact absurd h hc
        · exact h
      rw [hpi, not_or] at hc
      obtain ⟨nd, hnd⟩ : ∃ nd, N.nodes[n]? = some nd := ⟨_, List.getElem?_eq_getElem hnl⟩
      have hgw := hN.wf.gate n nd hnd hc.1 hc.2
      have hg : N.IsGate n nd.c0 nd.c1 := ⟨hc.1, hc.2, nd, hnd, hgw.2.2.2, rfl, rfl⟩
      have kk := Mapper.aigKids_of_gate hN hg
      have hkids := hff done n rest e
      have hnext : ∀ (D' : Aig) (a : Arr), Grown D D' → Entry good D' n a →
          ∃ D'' m'', balanceNodes sel off N st rest D' (m.set n a) = some (D'', m'') ∧ Balanced good D0 order D'' m'' := by
        intro D' a g ha
        refine ih (done ++ [n]) D' _ (by simp [e]) (h.step g ha) ?_
        intro k hk hkd
        exact absurd (List.mem_append_left _ (hcin k hk)) hkd
      cases ho : off n with
      | some l =>
        dsimp only
        rw [hnd]
        dsimp only
        have e0 := h.entry _ (hkids _ kk.1)
        have e1 := h.entry _ (hkids _ kk.2)
        have hs := Aig.createAnd_spec h.grown.wf (a := m.sig.img nd.c0) (b := m.sig.img nd.c1)
          (Aig.img_valid e0.valid) (Aig.img_valid e1.valid)
        refine hnext _ _ hs.grown ⟨hs.valid, ?_, ?_⟩
        · have := hoff n l ho
          show l ≤ 135 * n
          omega
        · intro v v' hgd hv
          obtain ⟨x, hx⟩ := hgood v v' hgd
          have q0 := e0.val v v' hgd (hs.ext.models hv)
          have q1 := e1.val v v' hgd (hs.ext.models hv)
          have i0 : (m.sig.img nd.c0).val v' = nd.c0.val v := by
            rw [Aig.img_val]; show Bool.xor ((m nd.c0.index).f.val v') _ = _; rw [q0, Sig.val, Bool.xor_comm]
          have i1 : (m.sig.img nd.c1).val v' = nd.c1.val v := by
            rw [Aig.img_val]; show Bool.xor ((m nd.c1.index).f.val v') _ = _; rw [q1, Sig.val, Bool.xor_comm]
          rw [hs.val v' hv, i0, i1, hx.models.gate n _ _ hg]
      | none =>
        dsimp only
        have hi := (enum_main () hN hreg hk).1 st est
        have hsl : n < st.sets.length := by rw [hi.len]; exact hnl
        have gs := List.getElem?_eq_getElem hsl
        rw [gs]
        dsimp only
        have hkind := enumerate_kind () hN hreg hmin h2 hk hl3 hsf est n _ hc.1 gs
        have hffd : FaninsFirst (aigKids N) done := by
          intro l1 k l2 e2 y hy
          exact hff l1 k (l2 ++ n :: rest) (by rw [e, e2]; simp) y hy
        have hfit : ∀ c ∈ (st.sets[n]).view, CutFit good st.cache done n c := by
          intro c hcv
          have hok := hi.done n _ hnl gs c hcv
          obtain ⟨t, t1, t2, t3⟩ := hok.table
          refine ⟨?_, ?_, t, t1, Mapper.lookup_wf hi.cache t1, t2, ?_⟩
          · rcases hkind.kind c hcv with h | ⟨h1, h2⟩
            · exact Or.inl h
            · refine Or.inr ⟨h1, fun x hx => ⟨h2 x hx, ?_⟩⟩
              have ht := hkind.tfi c hcv x hx
              cases ht with
              | refl => exact absurd (h2 _ hx) (Nat.lt_irrefl _)
              | step hk' ht' => exact hffd.mem (hkids _ hk') ht'
          · have := hok.size
            simp only [maxCutSize] at hk
            omega
          · intro v v' hgd
            obtain ⟨x, hx⟩ := hgood v v' hgd
            exact t3 v hx.models
        have hn135 : 135 * n < 4294967295 := by
          have : n < N.size := hnl
          omega
        obtain ⟨D', b', eb, g, hb⟩ := cutLoop_spec sel hc.1 hn135 (st.sets[n]).view D ⟨⟨⟨0, false⟩, 4294967295⟩, 0⟩ hfit h.grown.wf
          h.valid h.entry (Or.inr rfl)
        rw [eb]
        dsimp only
        apply hnext D' b'.arr g
        rcases hb with hb | ⟨_, hall⟩
        · exact hb
        · exfalso
          obtain ⟨c, hcv, hc2, t, t1, t2⟩ := hkind.direct _ _ hg
          obtain ⟨t', t1', hsk⟩ := hall c hcv
          rw [t1] at t1'
          obtain rfl := Option.some.inj t1'
          rcases hsk with hsk | hsk
          · rw [hc2] at hsk; simp at hsk
          · rw [t2] at hsk; cases hsk

end Verif.SopBalance
