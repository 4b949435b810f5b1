import Verif.Rewrite.NpnProof
import Mathlib.Logic.Equiv.Defs
import Mathlib.Data.Fintype.EquivFin
import Mathlib.Tactic.FinCases

set_option autoImplicit false

/-!
# C55: exact NPN canonization
-/

namespace Verif.Npn

open TT

/-- an assignment of four variables, as read by `TT.eval` -/
def asg (x : Fin 4 → Bool) : Nat → Bool := fun k => if h : k < 4 then x ⟨k, h⟩ else false

/-- `g` arises from `f` by permuting the inputs, negating some inputs and possibly negating the output. -/
def NpnEquiv (f g : TT) : Prop :=
  ∃ (π : Equiv.Perm (Fin 4)) (ν : Fin 4 → Bool) (o : Bool),
    ∀ x : Fin 4 → Bool, g.eval (asg x) = Bool.xor (f.eval (asg fun k => Bool.xor (x (π k)) (ν k))) o

theorem NpnEquiv.symm {f g : TT} (h : NpnEquiv f g) : NpnEquiv g f := by
  obtain ⟨π, ν, o, h⟩ := h
  refine ⟨π.symm, fun k => ν (π.symm k), o, fun x => ?_⟩
  rw [h fun k => Bool.xor (x (π.symm k)) (ν (π.symm k))]
  have : (fun k => Bool.xor (Bool.xor (x (π.symm (π k))) (ν (π.symm (π k)))) (ν k)) = x := by
    funext k
    rw [Equiv.symm_apply_apply]
    cases x k <;> cases ν k <;> rfl
  rw [this]
  cases f.eval (asg x) <;> cases o <;> rfl

theorem NpnEquiv.trans {f g h : TT} (a : NpnEquiv f g) (b : NpnEquiv g h) : NpnEquiv f h := by
  obtain ⟨π, ν, o, a⟩ := a
  obtain ⟨π', ν', o', b⟩ := b
  refine ⟨π.trans π', fun k => Bool.xor (ν' (π k)) (ν k), Bool.xor o o', fun x => ?_⟩
  rw [b, a]
  have : (fun k => Bool.xor (Bool.xor (x (π' (π k))) (ν' (π k))) (ν k)) =
      (fun k => Bool.xor (x ((π.trans π') k)) (Bool.xor (ν' (π k)) (ν k))) := by
    funext k
    rw [Equiv.trans_apply, Bool.xor_assoc]
  rw [this, Bool.xor_assoc]

/-- C55: the representative is a table of the class, and phase and permutation say how the function is obtained from
it: input `i` of the representative is input `perm[i]` of the function, negated if that bit is set in the phase, and
the output is negated if bit 4 is set. -/
theorem C55_config (tt : TT) (h : tt.WF) (hn : tt.n = 4) :
    (canon tt).1.WF ∧ (canon tt).1.n = 4 ∧ (canon tt).2.2.Perm [0, 1, 2, 3] ∧
      ∀ x y : Nat → Bool, (∀ i p, (canon tt).2.2[i]? = some p → y i = Bool.xor (x p) ((canon tt).2.1.testBit p)) →
        tt.eval x = Bool.xor ((canon tt).1.eval y) ((canon tt).2.1.testBit 4) := by
  have c := canon_config h hn
  refine ⟨c.wf, c.n.trans hn, ?_, fun x y hy => ?_⟩
  · have := c.isPerm
    rw [hn] at this
    exact this
  · have := c.eval x y hy
    rw [hn] at this
    exact this

theorem _root_.Verif.TT.eq_of_bits {t u : TT} (hn : t.n = u.n) (hb : t.bits = u.bits) : t = u := by
  obtain ⟨a, b⟩ := t
  obtain ⟨c, d⟩ := u
  obtain rfl : a = c := hn
  obtain rfl : b = d := hb
  rfl

theorem asg_val (x : Fin 4 → Bool) (k : Fin 4) : asg x k.val = x k := by
  unfold asg
  rw [dif_pos k.isLt]

theorem canon_equiv (tt : TT) (h : tt.WF) (hn : tt.n = 4) : NpnEquiv (canon tt).1 tt := by
  obtain ⟨-, hn', hp, he⟩ := C55_config tt h hn
  generalize canon tt = c at hn' hp he ⊢
  obtain ⟨r, phase, perm⟩ := c
  dsimp only at hn' hp he ⊢
  have hl : perm.length = 4 := hp.length_eq
  have hlt : ∀ k : Fin 4, perm[k.val]'(by omega) < 4 := by
    intro k
    have := hp.mem_iff.1 (List.getElem_mem (l := perm) (n := k.val) (by omega))
    simp at this
    omega
  have hnd : perm.Nodup := hp.nodup_iff.2 (by decide)
  let g : Fin 4 → Fin 4 := fun k => ⟨perm[k.val]'(by omega), hlt k⟩
  have ginj : Function.Injective g := by
    intro a b e
    have e : perm[a.val]'(by omega) = perm[b.val]'(by omega) := congrArg Fin.val e
    exact Fin.ext ((hnd.getElem_inj_iff).1 e)
  refine ⟨Equiv.ofBijective g ⟨ginj, Finite.surjective_of_injective ginj⟩, fun k => phase.testBit (g k).val, phase.testBit 4, fun x => ?_⟩
  refine he (asg x) _ (fun i p hip => ?_)
  have hi : i < 4 := by rw [← hl]; exact (List.getElem?_eq_some_iff.1 hip).1
  have hgi : (g ⟨i, hi⟩).val = p := (List.getElem?_eq_some_iff.1 hip).2
  unfold asg
  rw [dif_pos hi, dif_pos (by rw [← hgi]; exact (g ⟨i, hi⟩).isLt)]
  show Bool.xor (x (g ⟨i, hi⟩)) (phase.testBit (g ⟨i, hi⟩).val) = _
  subst hgi
  rfl

theorem cover_perms : ∀ a b c d : Fin 4, a ≠ b → a ≠ c → a ≠ d → b ≠ c → b ≠ d → c ≠ d →
    ∃ i : Fin 24, fwd (swaps4.take i) 0 = a ∧ fwd (swaps4.take i) 1 = b ∧ fwd (swaps4.take i) 2 = c ∧
      fwd (swaps4.take i) 3 = d := by decide +kernel

theorem cover_masks : ∀ a b c d : Bool, ∃ j : Fin 16, (mask 0 (flips4.take j)).testBit 0 = a ∧
    (mask 0 (flips4.take j)).testBit 1 = b ∧ (mask 0 (flips4.take j)).testBit 2 = c ∧
    (mask 0 (flips4.take j)).testBit 3 = d := by decide +kernel

theorem fin4 {P : Fin 4 → Prop} (h0 : P 0) (h1 : P 1) (h2 : P 2) (h3 : P 3) (k : Fin 4) : P k := by
  fin_cases k
  · exact h0
  · exact h1
  · exact h2
  · exact h3

theorem cover (π : Equiv.Perm (Fin 4)) (ν : Fin 4 → Bool) : ∃ i j, i ≤ 23 ∧ j ≤ 15 ∧
    ∀ k : Fin 4, fwd (swaps4.take i) k.val = (π k).val ∧ (mask 0 (flips4.take j)).testBit k.val = ν k := by
  have inj : ∀ a b : Fin 4, a ≠ b → π a ≠ π b := fun a b h e => h (π.injective e)
  obtain ⟨i, i0, i1, i2, i3⟩ := cover_perms (π 0) (π 1) (π 2) (π 3) (inj _ _ (by decide)) (inj _ _ (by decide))
    (inj _ _ (by decide)) (inj _ _ (by decide)) (inj _ _ (by decide)) (inj _ _ (by decide))
  obtain ⟨j, j0, j1, j2, j3⟩ := cover_masks (ν 0) (ν 1) (ν 2) (ν 3)
  exact ⟨i.val, j.val, by omega, by omega, fin4 ⟨i0, j0⟩ ⟨i1, j1⟩ ⟨i2, j2⟩ ⟨i3, j3⟩⟩

theorem eval_tab {t : TT} (hn : t.n = 4) (i j : Nat) (x : Nat → Bool) :
    (tab swaps4 flips4 t i j).eval x =
      t.eval fun k => Bool.xor (x (fwd (swaps4.take i) k)) ((mask 0 (flips4.take j)).testBit k) := by
  have h : ∀ p ∈ swaps4, p + 1 < 4 := by decide
  rw [tab, eval_swapsTT (by
    intro p hp
    rw [n_flipsTT, hn]
    exact h p (List.mem_of_mem_take hp)), eval_flipsTT]

/-- C55: the representative is the smallest table of the class of the function. -/
theorem C55_minimal (tt g : TT) (h : tt.WF) (hn : tt.n = 4) (hg : g.WF) (hgn : g.n = 4) (e : NpnEquiv tt g) :
    num (canon tt).1.bits ≤ num g.bits := by
  obtain ⟨π, ν, o, e⟩ := e
  obtain ⟨i, j, hi, hj, hc⟩ := cover π ν
  have hm := canon_minimal h hn i j hi hj
  have key : ∀ u : TT, u.n = 4 → u.WF →
      (∀ x : Fin 4 → Bool, g.eval (asg x) = u.eval (asg fun k => Bool.xor (x (π k)) (ν k))) →
      g = tab swaps4 flips4 u i j := by
    intro u hu hw hx
    refine eval_ext hg (wf_swapsTT (wf_flipsTT hw _) _) (by simp [tab, hu, hgn]) (fun x => ?_)
    rw [eval_tab hu, TT.eval_congr (y := asg fun k => x k.val) (by
      intro k hk
      rw [hgn] at hk
      rw [← asg_val (fun k => x k.val) ⟨k, hk⟩]), hx]
    apply TT.eval_congr
    intro k hk
    rw [hu] at hk
    have := hc ⟨k, hk⟩
    rw [asg_val _ ⟨k, hk⟩, ← this.2, ← this.1]
  cases o
  · rw [key tt hn h (fun x => by rw [e]; simp)]
    exact hm.1
  · rw [key tt.not hn (TT.wf_not _) (fun x => by
      rw [e, show ∀ y, tt.not.eval y = !tt.eval y from fun y => TT.get_not (TT.pos_lt y _)]; simp)]
    exact hm.2

/-- C55: two functions have the same representative exactly if they are NPN equivalent. -/
theorem C55_class (t u : TT) (ht : t.WF) (htn : t.n = 4) (hu : u.WF) (hun : u.n = 4) :
    (canon t).1 = (canon u).1 ↔ NpnEquiv t u := by
  obtain ⟨tw, tn, -⟩ := C55_config t ht htn
  obtain ⟨uw, un, -⟩ := C55_config u hu hun
  constructor
  · intro e
    have := canon_equiv t ht htn
    rw [e] at this
    exact this.symm.trans (canon_equiv u hu hun)
  · intro e
    have h1 := C55_minimal t (canon u).1 ht htn uw un (e.trans (canon_equiv u hu hun).symm)
    have h2 := C55_minimal u (canon t).1 hu hun tw tn (e.symm.trans (canon_equiv t ht htn).symm)
    refine TT.eq_of_bits (tn.trans un.symm) (TT.num_inj ?_ (Nat.le_antisymm h1 h2))
    rw [tw, uw, tn, un]

/-- The hypotheses hold for AND of four variables; its representative is NOR. -/
example : (canon (wordTT 0x8000)).1 = wordTT 0x0001 ∧ (canon (wordTT 0x8000)).2 = (15, [0, 1, 2, 3]) := by decide +kernel

/-- and for the 3-input majority, which is equivalent to a variant with negated inputs -/
example : (canon (wordTT 0xe8e8)).1 = (canon (wordTT 0x8e8e)).1 := by decide +kernel

end Verif.Npn
