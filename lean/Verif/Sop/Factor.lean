import Verif.Sop.Kernel
import Verif.Props.C23
import Verif.Aig.Gates
import Mathlib.Data.List.Nodup
import Batteries.Data.List.Perm

set_option autoImplicit false

/-!
# Proofs about factoring
-/

namespace Verif.Sop
open Aig (GateSpec)

theorem _root_.Verif.Aig.GateSpec.and2 {N : Aig} {f g : (Nat → Bool) → Bool} {r r' : Aig × Sig} (h : GateSpec N f r)
    (h' : GateSpec r.1 g r') : GateSpec N (fun v => f v && g v) (r'.1.createAnd r.2 r'.2) := by
  have hc := Aig.createAnd_spec h'.wf (h'.ext.valid h.valid) h'.valid
  have := h.bind (h'.bind hc)
  exact { this with val := fun v hv => (by
      rw [hc.val v hv, h'.val_later hc.ext hv, h.val_later (h'.ext.trans hc.ext) hv]) }

theorem _root_.Verif.Aig.GateSpec.or2 {N : Aig} {f g : (Nat → Bool) → Bool} {r r' : Aig × Sig} (h : GateSpec N f r)
    (h' : GateSpec r.1 g r') : GateSpec N (fun v => f v || g v) (r'.1.createOr r.2 r'.2) := by
  have hc := Aig.createOr_spec h'.wf (h'.ext.valid h.valid) h'.valid
  have := h.bind (h'.bind hc)
  exact { this with val := fun v hv => (by
      rw [hc.val v hv, h'.val_later hc.ext hv, h.val_later (h'.ext.trans hc.ext) hv]) }

/-- What the factoring procedure needs to know about the networks it extends: `W` is an invariant of networks, `Spec`
describes constructor calls. -/
structure Theory where
  W : Aig → Prop
  Spec : Aig → ((Nat → Bool) → Bool) → Aig × Sig → Prop
  wf : ∀ {N f r}, Spec N f r → W r.1
  later : ∀ {N f r} {s : Sig}, Spec N f r → N.Valid s → r.1.Valid s
  mono : ∀ {N f g r}, Spec N f r → (∀ v : Nat → Bool, v 0 = false → f v = g v) → Spec N g r
  id : ∀ {N} {s : Sig}, W N → N.Valid s → Spec N (fun v => s.val v) (N, s)
  const : ∀ {N}, W N → (b : Bool) → Spec N (fun _ => b) (N, Sig.const b)
  not : ∀ {N f r}, Spec N f r → Spec N (fun v => !(f v)) (r.1, r.2.not)
  and2 : ∀ {N f g r r'}, Spec N f r → Spec r.1 g r' → Spec N (fun v => f v && g v) (r'.1.createAnd r.2 r'.2)
  or2 : ∀ {N f g r r'}, Spec N f r → Spec r.1 g r' → Spec N (fun v => f v || g v) (r'.1.createOr r.2 r'.2)

/-- the networks of `Aig.WF` -/
def wfTheory : Theory where
  W := Aig.WF
  Spec := GateSpec
  wf h := h.wf
  later h hs := h.ext.valid hs
  mono h e := h.mono e
  id h hs := GateSpec.id h hs
  const := Aig.const_spec
  not h := h.not
  and2 h g := h.and2 g
  or2 h g := h.or2 g

variable {T : Theory}

/-- values of the leaf signals -/
def leafVal (ch : List Sig) (v : Nat → Bool) (i : Nat) : Bool :=
  match ch[i]? with
  | some s => s.val v
  | none => false

/-! ### the AND tree -/

theorem mem_litsIn {c : Product} {b e l : Nat} (he : e ≤ 64) :
    l ∈ litsIn c b e ↔ b ≤ l ∧ l < e ∧ c.getLsbD l = true := by
  unfold litsIn
  rw [List.mem_filter, List.mem_range'_1]
  constructor
  · rintro ⟨⟨h1, h2⟩, h3⟩
    rw [hasLit_eq c (by omega)] at h3
    exact ⟨h1, by omega, h3⟩
  · rintro ⟨h1, h2, h3⟩
    rw [hasLit_eq c (by omega)]
    exact ⟨⟨h1, by omega⟩, h3⟩

theorem litsIn_split (c : Product) {b i e : Nat} (h1 : b ≤ i) (h2 : i ≤ e) :
    litsIn c b e = litsIn c b i ++ litsIn c i e := by
  unfold litsIn
  rw [← List.filter_append]
  congr 1
  have := List.range'_append (s := b) (m := i - b) (n := e - i) (step := 1)
  rw [Nat.one_mul, show b + (i - b) = i by omega, show i - b + (e - i) = e - b by omega] at this
  exact this.symm

theorem litsIn_sorted (c : Product) (b e : Nat) : (litsIn c b e).Pairwise (· < ·) :=
  (List.pairwise_lt_range' ..).sublist List.filter_sublist

theorem genAnd_spec {ch : List Sig} {c : Product} : ∀ (f : Nat) (N : Aig) (b e : Nat), T.W N → (∀ s ∈ ch, N.Valid s) →
    e ≤ 64 → e ≤ 2 * ch.length → litsIn c b e ≠ [] → (litsIn c b e).length ≤ f →
    ∃ r, genAnd ch c f N b e = some r ∧ T.Spec N (fun v => (litsIn c b e).all (litVal (leafVal ch v))) r := by
  intro f
  induction f with
  | zero => intro N b e _ _ _ _ hne hl; exact absurd (List.length_eq_zero_iff.1 (by omega)) hne
  | succ f ih =>
    intro N b e hN hch he hlen hne hl
    rw [genAnd]
    match hls : litsIn c b e, hne, hl with
    | [lit], _, _ =>
      dsimp only
      have hm : lit ∈ litsIn c b e := by rw [hls]; simp
      rw [mem_litsIn he] at hm
      have hlt : lit / 2 < ch.length := by omega
      rw [List.getElem?_eq_getElem hlt]
      have hs := hch _ (List.getElem_mem hlt)
      refine ⟨_, rfl, ?_⟩
      have hv : ∀ v, leafVal ch v (lit / 2) = (ch[lit / 2]).val v := by
        intro v; rw [leafVal, List.getElem?_eq_getElem hlt]
      by_cases ho : lit % 2 = 1
      · rw [if_pos ho]
        exact T.mono (T.id hN hs) fun v _ => by simp [litVal, ho, hv]
      · rw [if_neg ho]
        exact T.mono (T.not (T.id hN hs)) fun v _ => by simp [litVal, ho, hv]
    | a :: a' :: l, _, hl =>
      dsimp only
      have hlt : (a :: a' :: l).length / 2 < (a :: a' :: l).length := by simp only [List.length_cons]; omega
      rw [List.getElem?_eq_getElem hlt]
      dsimp only
      generalize hi : (a :: a' :: l)[(a :: a' :: l).length / 2] = i
      have him : i ∈ litsIn c b e := by rw [hls, ← hi]; exact List.getElem_mem _
      have ham : a ∈ litsIn c b e := by rw [hls]; simp
      have hai : a < i := by
        have := litsIn_sorted c b e
        rw [hls] at this
        have := List.pairwise_iff_getElem.1 this 0 ((a :: a' :: l).length / 2) (by simp) hlt
          (by simp only [List.length_cons]; omega)
        rw [hi] at this
        exact this
      have him' := (mem_litsIn he).1 him
      have ham' := (mem_litsIn he).1 ham
      have hsp := litsIn_split c (b := b) (i := i) (e := e) him'.1 (by omega)
      have h1 : a ∈ litsIn c b i := (mem_litsIn (by omega)).2 ⟨ham'.1, hai, ham'.2.2⟩
      have h2 : i ∈ litsIn c i e := (mem_litsIn he).2 ⟨Nat.le_refl _, him'.2.1, him'.2.2⟩
      have hlen2 : (litsIn c b i).length + (litsIn c i e).length = (a :: a' :: l).length := by
        rw [← List.length_append, ← hsp, hls]
      have p1 := List.length_pos_of_mem h1
      have p2 := List.length_pos_of_mem h2
      obtain ⟨r1, e1, s1⟩ := ih N b i hN hch (by omega) (by omega) (List.ne_nil_of_mem h1) (by omega)
      obtain ⟨r2, e2, s2⟩ := ih r1.1 i e (T.wf s1) (fun s hs => T.later s1 (hch s hs)) he hlen (List.ne_nil_of_mem h2)
        (by omega)
      rw [e1]
      dsimp only
      rw [e2]
      refine ⟨_, rfl, ?_⟩
      rw [← hls, hsp]
      exact T.mono (T.and2 s1 s2) fun v _ => (List.all_append ..).symm

/-- no literal at or above `n` -/
def Bound (n : Nat) (c : Product) : Prop := ∀ l, n ≤ l → c.getLsbD l = false

theorem Bound.sub {n : Nat} {c d : Product} (h : Bound n c) (hs : Sub d c) : Bound n d := by
  intro l hl
  cases hd : d.getLsbD l with
  | false => rfl
  | true => rw [← h l hl, hs l hd]

theorem exists_lit {n : Nat} {c : Product} (h0 : c ≠ 0#64) (h : Bound n c) : ∃ l, l < n ∧ c.getLsbD l = true := by
  apply Classical.byContradiction
  intro hn
  apply h0
  apply BitVec.eq_of_getLsbD_eq
  intro i _
  rw [BitVec.getLsbD_zero]
  by_cases hi : i < n
  · cases hc : c.getLsbD i with
    | false => rfl
    | true => exact absurd ⟨i, hi, hc⟩ hn
  · exact h i (by omega)

theorem all_litsIn (x : Nat → Bool) {c : Product} {n : Nat} (hn : n ≤ 64) (h : Bound n c) :
    (litsIn c 0 n).all (litVal x) = productVal x c := by
  rw [Bool.eq_iff_iff, productVal_iff, List.all_eq_true]
  constructor
  · intro ha l hl
    apply ha l
    rw [mem_litsIn hn]
    refine ⟨Nat.zero_le _, ?_, hl⟩
    by_contra hge
    rw [h l (by omega)] at hl; cases hl
  · intro ha l hl
    rw [mem_litsIn hn] at hl
    exact ha l hl.2.2

theorem genAnd_product {ch : List Sig} {c : Product} {n f : Nat} {N : Aig} (hN : T.W N) (hch : ∀ s ∈ ch, N.Valid s)
    (hn : n ≤ 64) (hlen : n ≤ 2 * ch.length) (h0 : c ≠ 0#64) (hb : Bound n c) (hf : 64 ≤ f) :
    ∃ r, genAnd ch c f N 0 n = some r ∧ T.Spec N (fun v => productVal (leafVal ch v) c) r := by
  obtain ⟨l, hl, hc⟩ := exists_lit h0 hb
  have hm : l ∈ litsIn c 0 n := (mem_litsIn hn).2 ⟨Nat.zero_le _, hl, hc⟩
  obtain ⟨r, e, s⟩ := genAnd_spec f N 0 n hN hch hn hlen (List.ne_nil_of_mem hm) (by
    have := List.length_filter_le (hasLit c) (List.range' 0 (n - 0))
    rw [List.length_range'] at this
    unfold litsIn
    omega)
  exact ⟨r, e, T.mono s fun v _ => all_litsIn _ hn hb⟩

/-! ### the AND-OR tree -/

theorem genAndOr_spec {ch : List Sig} {n : Nat} (hn : n ≤ 64) (hlen : n ≤ 2 * ch.length) : ∀ (f : Nat) (N : Aig) (s : Terms),
    T.W N → (∀ s ∈ ch, N.Valid s) → s ≠ [] → (∀ c ∈ s, c ≠ 0#64 ∧ Bound n c) → s.length + 64 ≤ f →
    ∃ r, genAndOr ch n f N s = some r ∧ T.Spec N (fun v => val (leafVal ch v) s) r := by
  intro f
  induction f with
  | zero => intro N s _ _ _ _ h; omega
  | succ f ih =>
    intro N s hN hch hne hs hf
    match s, hne, hs, hf with
    | [c], _, hs, hf =>
      rw [genAndOr]
      obtain ⟨h0, hb⟩ := hs c (by simp)
      simp only [List.length_singleton] at hf
      obtain ⟨r, e, sp⟩ := genAnd_product hN hch hn hlen h0 hb (f := f) (by omega)
      exact ⟨r, e, T.mono sp fun v _ => by simp [val]⟩
    | a :: a' :: l, _, hs, hf =>
      rw [genAndOr]
      swap
      · intro d h; simp at h
      generalize hk : (a :: a' :: l).length / 2 = k
      have hk1 : 0 < k ∧ k < (a :: a' :: l).length := by rw [← hk]; simp only [List.length_cons]; omega
      have ht : ((a :: a' :: l).take k).length = k := by rw [List.length_take]; omega
      have hd : ((a :: a' :: l).drop k).length = (a :: a' :: l).length - k := List.length_drop
      obtain ⟨r1, e1, s1⟩ := ih N ((a :: a' :: l).take k) hN hch (by intro e; rw [e] at ht; simp at ht; omega)
        (fun c hc => hs c (List.mem_of_mem_take hc)) (by omega)
      obtain ⟨r2, e2, s2⟩ := ih r1.1 ((a :: a' :: l).drop k) (T.wf s1) (fun s hs => T.later s1 (hch s hs))
        (by intro e; rw [e] at hd; simp only [List.length_nil] at hd; omega)
        (fun c hc => hs c (List.mem_of_mem_drop hc)) (by omega)
      rw [e1]
      dsimp only
      rw [e2]
      refine ⟨_, rfl, T.mono (T.or2 s1 s2) fun v _ => ?_⟩
      unfold val
      rw [← List.any_append, List.take_append_drop]

/-! ### choice of a literal -/

theorem mostLitLoop_spec (s : Terms) (cube : Product) : ∀ (ls : List Nat) (lit : Option Nat) (times : Nat), 1 ≤ times →
    (lit ≠ none ∨ ∃ l ∈ ls, hasLit cube l = true ∧ times < s.countP (hasLit · l)) →
    (∀ l ∈ lit, hasLit cube l = true ∧ 1 < s.countP (hasLit · l)) →
    ∃ l, mostLitLoop s cube ls lit times = some l ∧ (lit = some l ∨ l ∈ ls) ∧ hasLit cube l = true ∧
      1 < s.countP (hasLit · l) := by
  intro ls
  induction ls with
  | nil =>
    intro lit times _ h hlit
    rcases h with h | ⟨l, hl, _⟩
    · obtain ⟨l, rfl⟩ := Option.ne_none_iff_exists'.1 h
      exact ⟨l, rfl, .inl rfl, hlit l rfl⟩
    · simp at hl
  | cons a ls ih =>
    intro lit times ht h hlit
    rw [mostLitLoop]
    dsimp only
    by_cases ha : hasLit cube a = true
    · rw [if_neg (by simp [ha])]
      by_cases ho : times < s.countP (hasLit · a)
      · rw [if_pos ho]
        obtain ⟨l, e, h1, h2⟩ := ih (some a) (s.countP (hasLit · a)) (by omega) (.inl (by simp)) (by
          intro l hl
          simp only [Option.mem_def, Option.some.injEq] at hl
          subst hl
          exact ⟨ha, by omega⟩)
        refine ⟨l, e, ?_, h2⟩
        rcases h1 with h1 | h1
        · right; simp only [Option.some.injEq] at h1; simp [h1]
        · right; simp [h1]
      · rw [if_neg ho]
        obtain ⟨l, e, h1, h2⟩ := ih lit times ht (by
          rcases h with h | ⟨l, hl, h3, h4⟩
          · exact .inl h
          · rcases List.mem_cons.1 hl with rfl | hl
            · exact absurd h4 ho
            · exact .inr ⟨l, hl, h3, h4⟩) hlit
        exact ⟨l, e, h1.imp_right fun h => by simp [h], h2⟩
    · rw [if_pos (by simpa using ha)]
      obtain ⟨l, e, h1, h2⟩ := ih lit times ht (by
        rcases h with h | ⟨l, hl, h3, h4⟩
        · exact .inl h
        · rcases List.mem_cons.1 hl with rfl | hl
          · exact absurd h3 ha
          · exact .inr ⟨l, hl, h3, h4⟩) hlit
      exact ⟨l, e, h1.imp_right fun h => by simp [h], h2⟩

theorem count_ge {F L : Terms} {p : Product → Bool} (hn : L.Nodup) (hs : ∀ a ∈ L, a ∈ F ∧ p a = true) :
    L.length ≤ F.countP p := by
  have h1 : L.Subperm F := List.subperm_of_subset hn fun a ha => (hs a ha).1
  have h2 := List.Subperm.countP_le p h1
  rw [List.countP_eq_length.2 fun a ha => (hs a ha).2] at h2
  exact h2

/-- adding a fixed cube is injective on cubes that fit it -/
theorem shift_nodup {Q : Terms} (hQ : Q.Nodup) {g : Product} (h : ∀ q ∈ Q, Fit q g (g ||| q)) :
    (Q.map (g ||| ·)).Nodup := by
  rw [List.Nodup, List.pairwise_map]
  refine List.Pairwise.imp_of_mem ?_ hQ
  intro a b ha hb hab e
  have fa := h a ha
  rw [e] at fa
  exact hab (fa.2.trans (h b hb).2.symm)

theorem fit_or {q g c : Product} (h : Fit q g c) : c = g ||| q := (fit_iff.1 h).1

theorem lits_shift {Q F : Terms} (hQ : Q.Nodup) (g : Product) (h : ∀ q ∈ Q, ∃ c ∈ F, Fit q g c) :
    lits Q + Q.length * countLit g ≤ lits F := by
  have h' : ∀ q ∈ Q, (g ||| q) ∈ F ∧ Fit q g (g ||| q) := by
    intro q hq
    obtain ⟨c, hc, hf⟩ := h q hq
    rw [← fit_or hf]
    exact ⟨hc, hf⟩
  have h1 : lits (Q.map (g ||| ·)) ≤ lits F :=
    lits_le_of_subset (shift_nodup hQ fun q hq => (h' q hq).2) fun a ha => by
      obtain ⟨q, hq, rfl⟩ := List.mem_map.1 ha
      exact (h' q hq).1
  have h2 : ∀ l : Terms, (∀ q ∈ l, Fit q g (g ||| q)) → lits (l.map (g ||| ·)) = lits l + l.length * countLit g := by
    intro l
    induction l with
    | nil => intro _; simp [lits]
    | cons a l ih =>
      intro hl
      rw [List.map_cons, lits_cons, lits_cons, countLit_fit (hl a (by simp)), ih fun q hq => hl q (by simp [hq]),
        List.length_cons, Nat.add_mul]
      omega
  rw [h2 Q fun q hq => (h' q hq).2] at h1
  exact h1

/-! ### factoring -/

/-- what `gen_factor_rec` needs: no product contains another one, none is empty, all literals below `n` -/
structure Good (n : Nat) (s : Terms) : Prop where
  anti : Anti s
  ne : s ≠ []
  pos : ∀ c ∈ s, c ≠ 0#64
  bound : ∀ c ∈ s, Bound n c

theorem Good.noMark {n : Nat} {s : Terms} (h : Good n s) (hn : n ≤ 62) : ∀ c ∈ s, NoMark c :=
  fun c hc => h.bound c hc 63 (by omega)

theorem Good.len_lits {n : Nat} {s : Terms} (h : Good n s) : s.length ≤ lits s := by
  have : ∀ l : Terms, (∀ c ∈ l, c ≠ 0#64) → l.length ≤ lits l := by
    intro l
    induction l with
    | nil => simp [lits]
    | cons a l ih =>
      intro hl
      have h1 := ih fun c hc => hl c (by simp [hc])
      have h2 := countLit_pos (hl a (by simp))
      rw [lits_cons, List.length_cons]; omega
  exact this s h.pos

/-- correctness of a recursive call on smaller sums -/
def RecOk (T : Theory) (ch : List Sig) (n m : Nat) (rec : Aig → Terms → Option (Aig × Sig)) : Prop :=
  ∀ (N : Aig) (s : Terms), T.W N → (∀ s ∈ ch, N.Valid s) → Good n s → lits s < m →
    ∃ r, rec N s = some r ∧ T.Spec N (fun v => val (leafVal ch v) s) r

theorem addRem_spec {ch : List Sig} {n m : Nat} {rec : Aig → Terms → Option (Aig × Sig)} (hrec : RecOk T ch n m rec)
    {N : Aig} {f : (Nat → Bool) → Bool} {r : Aig × Sig} (hr : T.Spec N f r) (hch : ∀ s ∈ ch, N.Valid s) {R : Terms}
    (hR : R ≠ [] → Good n R ∧ lits R < m) :
    ∃ r', addRem rec r.1 r.2 R = some r' ∧ T.Spec N (fun v => f v || val (leafVal ch v) R) r' := by
  unfold addRem
  by_cases h : R = []
  · rw [if_pos h]
    exact ⟨_, rfl, T.mono hr fun v _ => by simp [h, val]⟩
  · rw [if_neg h]
    obtain ⟨r', e, s⟩ := hrec r.1 R (T.wf hr) (fun s hs => T.later hr (hch s hs)) (hR h).1 (hR h).2
    rw [e]
    exact ⟨_, rfl, T.or2 hr s⟩

theorem Good.rem {n : Nat} {F R : Terms} (hF : Good n F) (hs : R.Sublist F) (hR : R ≠ []) : Good n R :=
  ⟨hF.anti.sublist hs, hR, fun c hc => hF.pos c (hs.subset hc), fun c hc => hF.bound c (hs.subset hc)⟩

theorem litFactor_spec {ch : List Sig} {n f : Nat} {rec : Aig → Terms → Option (Aig × Sig)} {F : Terms}
    (hF : Good n F) (hn : n ≤ 62) (hlen : n ≤ 2 * ch.length) (hf : 64 ≤ f) (hrec : RecOk T ch n (lits F) rec) {N : Aig}
    (hN : T.W N) (hch : ∀ s ∈ ch, N.Valid s) {cube : Product}
    (hl : ∃ l, l < n ∧ cube.getLsbD l = true ∧ 1 < F.countP (hasLit · l)) :
    ∃ r, litFactor ch n f rec N F cube = some r ∧ T.Spec N (fun v => val (leafVal ch v) F) r := by
  obtain ⟨l0, h1, h2, h3⟩ := hl
  obtain ⟨l, e, hm, _, hcnt⟩ := mostLitLoop_spec F cube (List.range n) none 1 (Nat.le_refl _)
    (.inr ⟨l0, List.mem_range.2 h1, by rw [hasLit_eq _ (by omega)]; exact h2, h3⟩) (by simp)
  have hln : l < n := by
    rcases hm with h | h
    · cases h
    · exact List.mem_range.1 h
  unfold litFactor bestLit mostLit
  rw [e]
  dsimp only
  generalize hd : (1#64 <<< l : Product) = d
  have hbit : ∀ j, d.getLsbD j = decide (j = l) := fun j => by rw [← hd, getLsbD_shift1 l j (by omega)]
  have hd0 : d ≠ 0#64 := by
    intro e0
    have := hbit l
    rw [e0] at this
    simp at this
  have hdb : Bound n d := fun j hj => by rw [hbit]; simp; omega
  have hdc := divideByCube_spec F d
  have hlits := lits_divideByCube d F
  have hcl := countLit_pos hd0
  have hQ2 : 2 ≤ (divideByCube F d).1.length := by
    simp only [divideByCube, List.length_map]
    rw [← List.countP_eq_length_filter]
    refine Nat.le_trans hcnt (List.countP_mono_left fun c _ hc => ?_)
    rw [and_eq_iff]
    intro j hj
    rw [hbit, decide_eq_true_eq] at hj
    subst hj
    rwa [hasLit_eq _ (by omega)] at hc
  generalize (divideByCube F d).1 = Q at *
  generalize (divideByCube F d).2 = R at *
  have hQA := hdc.anti hF.anti (by simp)
  have hsz : 2 * countLit d ≤ Q.length * countLit d := Nat.mul_le_mul_right _ hQ2
  obtain ⟨r1, e1, s1⟩ := genAnd_product (f := f) hN hch (by omega) hlen hd0 hdb hf
  rw [e1]
  dsimp only
  have hQg : Good n Q := by
    refine ⟨hQA, by rintro rfl; simp at hQ2, hQA.ne_zero hQ2, fun q hq => ?_⟩
    obtain ⟨c, hc, hfit⟩ := hdc.quot q hq d (by simp)
    exact (hF.bound c hc).sub hfit.sub
  obtain ⟨r2, e2, s2⟩ := hrec r1.1 Q (T.wf s1) (fun s hs => T.later s1 (hch s hs)) hQg (by omega)
  rw [e2]
  dsimp only
  obtain ⟨r3, e3, s3⟩ := addRem_spec hrec (T.and2 s1 s2) hch (R := R) fun hR => ⟨hF.rem hdc.rem hR, by omega⟩
  refine ⟨r3, e3, T.mono s3 fun v _ => ?_⟩
  rw [hdc.val]
  simp [val]

theorem common_sub {Q : Terms} {q : Product} (hq : q ∈ Q) : Sub (common Q) q := fun i hi => ((common_bit Q i).1 hi).2 q hq

theorem makeCubeFree_eq (Q : Terms) : makeCubeFree Q = Q.map (· &&& ~~~common Q) := by
  unfold makeCubeFree
  by_cases h : common Q = 0#64
  · rw [if_pos h, h]
    conv_lhs => rw [← List.map_id Q]
    apply List.map_congr_left
    intro q _
    rw [show (~~~0#64 : Product) = BitVec.allOnes 64 from by decide, BitVec.and_allOnes]; rfl
  · rw [if_neg h]

/-- one call of `gen_factor_rec`, given correct calls on smaller sums -/
theorem genFactor_spec {ch : List Sig} {n : Nat} (hn : n ≤ 62) (hlen : n ≤ 2 * ch.length) : ∀ (f : Nat) (N : Aig) (F : Terms),
    T.W N → (∀ s ∈ ch, N.Valid s) → Good n F → lits F + 66 ≤ f →
    ∃ r, genFactor ch n f N F = some r ∧ T.Spec N (fun v => val (leafVal ch v) F) r := by
  intro f
  induction f with
  | zero => intro N F _ _ _ h; omega
  | succ f ih =>
    intro N F hN hch hF hf
    have hrec : RecOk T ch n (lits F) (genFactor ch n f) := fun N s h1 h2 h3 h4 => ih N s h1 h2 h3 (by omega)
    have hll := hF.len_lits
    rw [genFactor]
    rcases goodDivisor_spec hF.anti (hF.noMark hn) n hn with e | ⟨K, C, e, hC, hK, hK2⟩
    · rw [e]
      dsimp only
      exact genAndOr_spec (by omega) hlen f N F hN hch hF.ne (fun c hc => ⟨hF.pos c hc, hF.bound c hc⟩) (by omega)
    · rw [e]
      dsimp only
      have hKne : K ≠ [] := by rintro rfl; simp at hK2
      obtain ⟨k1, hk1⟩ := List.exists_mem_of_ne_nil K hKne
      obtain ⟨hr1, hd⟩ := divide_spec (hF.noMark hn) K
      have hCQ : C ∈ (divide F K).2.1 := hd.mem hK.anti hKne fun k hk => by
        obtain ⟨c, hc, hfit⟩ := hK.fit k hk
        exact ⟨c, hc, hfit.symm⟩
      rw [hr1]
      generalize (divide F K).2.1 = Q at *
      generalize (divide F K).2.2 = R at *
      have hQA := hd.anti hF.anti hKne
      match Q, hCQ, hQA, hd with
      | [q], hCQ, _, _ =>
        dsimp only
        rw [List.mem_singleton] at hCQ
        subst hCQ
        apply litFactor_spec hF hn hlen (by omega) hrec hN hch
        have hkf : ∀ k ∈ K, (C ||| k) ∈ F ∧ Fit k C (C ||| k) := by
          intro k hk
          obtain ⟨c, hc, hfit⟩ := hK.fit k hk
          rw [← fit_or hfit]
          exact ⟨hc, hfit⟩
        have hCb : Bound n C := by
          have := hkf k1 hk1
          exact (hF.bound _ this.1).sub this.2.1
        obtain ⟨l, hl, hb⟩ := exists_lit hC hCb
        refine ⟨l, hl, hb, ?_⟩
        refine Nat.lt_of_lt_of_le (show 1 < (K.map (C ||| ·)).length by rw [List.length_map]; omega)
          (count_ge (shift_nodup hK.anti.nodup fun k hk => (hkf k hk).2) fun a ha => ?_)
        obtain ⟨k, hk, rfl⟩ := List.mem_map.1 ha
        refine ⟨(hkf k hk).1, ?_⟩
        rw [hasLit_eq _ (by omega), BitVec.getLsbD_or, hb]; rfl
      | q1 :: q2 :: l, hCQ, hQA, hd =>
        dsimp only
        generalize hQ : q1 :: q2 :: l = Q at *
        have hQ2 : 2 ≤ Q.length := by rw [← hQ]; simp
        rw [makeCubeFree_eq]
        generalize hm : common Q = m
        have hmq : ∀ q ∈ Q, Sub m q := fun q hq => hm ▸ common_sub hq
        have hmf : ∀ q ∈ Q, Fit (q &&& ~~~m) m q := fun q hq => ⟨hmq q hq, rfl⟩
        generalize hQ' : Q.map (· &&& ~~~m) = Q'
        have hQ'2 : 2 ≤ Q'.length := by rw [← hQ', List.length_map]; exact hQ2
        have hQ'A : Anti Q' := by
          have hinj : ∀ a ∈ Q, ∀ b ∈ Q, Sub (a &&& ~~~m) (b &&& ~~~m) → a = b := by
            intro a ha b hb hs
            apply hQA.eq a ha b hb
            intro i hi
            rw [(hmf a ha).mem, Bool.or_eq_true] at hi
            rw [(hmf b hb).mem, Bool.or_eq_true]
            exact hi.imp_right (hs i)
          rw [← hQ']
          constructor
          · rw [List.Nodup, List.pairwise_map]
            refine List.Pairwise.imp_of_mem ?_ hQA.nodup
            intro a b ha hb hab e
            exact hab (hinj a ha b hb (e ▸ Sub.refl _))
          · intro a ha b hb hs
            obtain ⟨a', ha', rfl⟩ := List.mem_map.1 ha
            obtain ⟨b', hb', rfl⟩ := List.mem_map.1 hb
            rw [hinj a' ha' b' hb' hs]
        have hQ'ne : Q' ≠ [] := by rintro rfl; simp at hQ'2
        have hQ'0 := hQ'A.ne_zero hQ'2
        obtain ⟨hr2, hd2⟩ := divide_spec (hF.noMark hn) Q'
        have hD : ∀ k ∈ K, (m ||| k) ∈ (divide F Q').2.1 ∧ Fit k m (m ||| k) := by
          intro k hk
          have hkm : Disj m k := by
            obtain ⟨q, hq⟩ := List.exists_mem_of_ne_nil Q (by rintro rfl; simp at hQ2)
            obtain ⟨c, _, hfit⟩ := hd.quot q hq k hk
            intro i hi
            cases hki : k.getLsbD i with
            | false => rfl
            | true => rw [← hfit.disj i hki, hmq q hq i hi]
          refine ⟨hd2.mem hQ'A hQ'ne fun g hg => ?_, fit_iff.2 ⟨rfl, hkm⟩⟩
          rw [← hQ'] at hg
          obtain ⟨q, hq, rfl⟩ := List.mem_map.1 hg
          obtain ⟨c, hc, hfit⟩ := hd.quot q hq k hk
          refine ⟨c, hc, fit_iff.2 ⟨?_, ?_⟩⟩
          · rw [fit_or hfit]
            conv_lhs => rw [fit_or (hmf q hq)]
            rw [BitVec.or_comm, BitVec.or_comm m, BitVec.or_assoc]
          · intro i hi
            rw [BitVec.getLsbD_or, Bool.or_eq_false_iff]
            refine ⟨(hmf q hq).symm.disj i hi, ?_⟩
            cases hki : k.getLsbD i with
            | false => rfl
            | true =>
              have h1 := hfit.disj i hki
              rw [(hmf q hq).sub i hi] at h1; cases h1
        rw [hr2]
        generalize (divide F Q').2.1 = D at *
        generalize (divide F Q').2.2 = R2 at *
        have hDA := hd2.anti hF.anti hQ'ne
        have hD2 : 2 ≤ D.length := by
          have h1 := List.subperm_of_subset (l₂ := D) (shift_nodup hK.anti.nodup fun k hk => (hD k hk).2) (by
            intro a ha
            obtain ⟨k, hk, rfl⟩ := List.mem_map.1 ha
            exact (hD k hk).1)
          have := h1.length_le
          rw [List.length_map] at this
          omega
        have hDne : D ≠ [] := by rintro rfl; simp at hD2
        have hD0 := hDA.ne_zero hD2
        obtain ⟨g1, hg1⟩ := List.exists_mem_of_ne_nil Q' hQ'ne
        obtain ⟨d1, hd1⟩ := List.exists_mem_of_ne_nil D hDne
        by_cases hcf : isCubeFree D = true
        · rw [if_pos hcf]
          have hlD : lits D < lits F := by
            have h1 := lits_shift hDA.nodup g1 fun d hd => hd2.quot d hd g1 hg1
            have h2 := countLit_pos (hQ'0 g1 hg1)
            have h3 : 1 * countLit g1 ≤ D.length * countLit g1 := Nat.mul_le_mul_right _ (by omega)
            omega
          have hlQ : lits Q' < lits F := by
            have h1 := lits_shift hQ'A.nodup d1 fun g hg => by
              obtain ⟨c, hc, hfit⟩ := hd2.quot d1 hd1 g hg
              exact ⟨c, hc, hfit.symm⟩
            have h2 := countLit_pos (hD0 d1 hd1)
            have h3 : 1 * countLit d1 ≤ Q'.length * countLit d1 := Nat.mul_le_mul_right _ (by omega)
            omega
          have hlR : lits R2 < lits F := by
            obtain ⟨c, hc, hfit⟩ := hd2.quot d1 hd1 g1 hg1
            have hnR : c ∉ R2 := fun h => hd2.disjoint hF.anti.nodup d1 hd1 g1 hg1 c h hfit
            have := lits_le_of_subset (L := c :: R2) (M := F)
              (List.nodup_cons.2 ⟨hnR, hF.anti.nodup.sublist hd2.rem⟩) (by
                intro a ha
                rcases List.mem_cons.1 ha with rfl | ha
                · exact hc
                · exact hd2.rem.subset ha)
            rw [lits_cons] at this
            have := countLit_pos (hF.pos c hc)
            omega
          have hDg : Good n D := ⟨hDA, hDne, hD0, fun d hd => by
            obtain ⟨c, hc, hfit⟩ := hd2.quot d hd g1 hg1
            exact (hF.bound c hc).sub hfit.sub⟩
          have hQg : Good n Q' := ⟨hQ'A, hQ'ne, hQ'0, fun g hg => by
            obtain ⟨c, hc, hfit⟩ := hd2.quot d1 hd1 g hg
            exact (hF.bound c hc).sub hfit.1⟩
          obtain ⟨r1, e1, s1⟩ := hrec N D hN hch hDg hlD
          obtain ⟨r2, e2, s2⟩ := hrec r1.1 Q' (T.wf s1) (fun s hs => T.later s1 (hch s hs)) hQg hlQ
          rw [e1]
          dsimp only
          rw [e2]
          dsimp only
          obtain ⟨r3, e3, s3⟩ := addRem_spec hrec (T.and2 s1 s2) hch (R := R2) fun hR => ⟨hF.rem hd2.rem hR, hlR⟩
          refine ⟨r3, e3, T.mono s3 fun v _ => ?_⟩
          rw [hd2.val, Bool.and_comm (val _ D)]
        · rw [if_neg hcf]
          apply litFactor_spec hF hn hlen (by omega) hrec hN hch
          have hc0 : common D ≠ 0#64 := by simpa [isCubeFree] using hcf
          obtain ⟨l', hl', hb⟩ := exists_lit hc0 (n := n) (by
            obtain ⟨c, hc, hfit⟩ := hd2.quot d1 hd1 g1 hg1
            exact (hF.bound c hc).sub ((common_sub hd1).trans hfit.sub))
          refine ⟨l', hl', hb, ?_⟩
          have hdf : ∀ d ∈ D, (g1 ||| d) ∈ F ∧ Fit d g1 (g1 ||| d) := by
            intro d hd
            obtain ⟨c, hc, hfit⟩ := hd2.quot d hd g1 hg1
            rw [← fit_or hfit]
            exact ⟨hc, hfit⟩
          refine Nat.lt_of_lt_of_le (show 1 < (D.map (g1 ||| ·)).length by rw [List.length_map]; omega)
            (count_ge (shift_nodup hDA.nodup fun d hd => (hdf d hd).2) fun a ha => ?_)
          obtain ⟨d, hd, rfl⟩ := List.mem_map.1 ha
          refine ⟨(hdf d hd).1, ?_⟩
          rw [hasLit_eq _ (by omega), BitVec.getLsbD_or, common_sub hd l' hb]
          simp

end Verif.Sop
