import Verif.Sim.Pack
import Mathlib.Data.List.Forall2

set_option autoImplicit false

/-! # Helper lemmas about the bit-packed simulator -/

namespace Verif.Pack

/-- all tables have `L` bits -/
def Sized (L : Nat) (rows : List Row) : Prop := ∀ r ∈ rows, r.pat.length = L ∧ r.care.length = L

/-- row `r` cares for position `q` with value `b` -/
def RowAt (r : Row) (q : Nat) (b : Bool) : Prop := r.care[q]? = some true ∧ r.pat[q]? = some b

/-- input `i` is cared for at position `q` with value `b` -/
def At (rows : List Row) (i q : Nat) (b : Bool) : Prop := ∃ r, rows[i]? = some r ∧ RowAt r q b

theorem at_nil (i q : Nat) (b : Bool) : ¬ At [] i q b := by rintro ⟨r, h, _⟩; simp at h

theorem at_zero (r : Row) (rows : List Row) (q : Nat) (b : Bool) : At (r :: rows) 0 q b ↔ RowAt r q b := by
  simp [At]

theorem at_succ (r : Row) (rows : List Row) (i q : Nat) (b : Bool) : At (r :: rows) (i + 1) q b ↔ At rows i q b := by
  simp [At]

theorem At.lt {L : Nat} {rows : List Row} (hs : Sized L rows) {i q : Nat} {b : Bool} (h : At rows i q b) : q < L := by
  obtain ⟨r, hr, hc, _⟩ := h
  obtain ⟨h1, _⟩ := List.getElem?_eq_some_iff.1 hc
  rw [(hs r (List.mem_of_getElem? hr)).2] at h1
  exact h1

theorem Sized.cons {L : Nat} {r : Row} {rows : List Row} : Sized L (r :: rows) ↔ (r.pat.length = L ∧ r.care.length = L) ∧ Sized L rows := by
  simp [Sized]

theorem moveRow_spec {L src dst : Nat} {r : Row} (hp : r.pat.length = L) (hc : r.care.length = L) (h1 : src < L) (h2 : dst < L)
    (hne : src ≠ dst) : ∃ r', moveRow src dst r = some r' ∧ (r'.pat.length = L ∧ r'.care.length = L) ∧
      (∀ b, RowAt r src b → RowAt r' dst b) ∧ (∀ q b, q ≠ src → q ≠ dst → (RowAt r' q b ↔ RowAt r q b)) ∧
      (∀ b, ¬ RowAt r' src b) ∧ (∀ b, (∀ c, ¬ RowAt r src c) → (RowAt r' dst b ↔ RowAt r dst b)) ∧
      ∀ q b, RowAt r' q b → RowAt r q b ∨ q = dst ∧ RowAt r src b := by
  unfold moveRow
  have e1 : r.care[src]? = some r.care[src] := List.getElem?_eq_getElem (by omega)
  have e2 : r.pat[src]? = some r.pat[src] := List.getElem?_eq_getElem (by omega)
  rw [e1]
  cases hcs : r.care[src] with
  | false =>
    have hno : ∀ b, ¬ RowAt r src b := fun b h => by
      have := h.1
      rw [e1, hcs] at this
      simp at this
    exact ⟨r, rfl, ⟨hp, hc⟩, fun b h => absurd h (hno b), fun q b _ _ => Iff.rfl, hno, fun b _ => Iff.rfl, fun q b h => Or.inl h⟩
  | true =>
    dsimp only
    rw [e2]
    dsimp only
    rw [if_pos (by omega)]
    refine ⟨_, rfl, ⟨by simpa using hp, by simpa using hc⟩, ?_, ?_, ?_, ?_, ?_⟩
    · intro b h
      have : r.pat[src] = b := Option.some.inj (e2.symm.trans h.2)
      subst this
      constructor
      · show ((r.care.set dst true).set src false)[dst]? = some true
        rw [List.getElem?_set_ne hne, List.getElem?_set_self (by omega)]
      · exact List.getElem?_set_self (by omega)
    · intro q b hs hd
      unfold RowAt
      dsimp only
      rw [List.getElem?_set_ne (Ne.symm hs), List.getElem?_set_ne (Ne.symm hd), List.getElem?_set_ne (Ne.symm hd)]
    · intro b h
      have := h.1
      dsimp only at this
      rw [List.getElem?_set_self (by simp; omega)] at this
      simp at this
    · intro b h
      exact absurd ⟨by rw [e1, hcs], e2⟩ (h r.pat[src])
    · intro q b h
      by_cases hs : q = src
      · subst hs
        have := h.1
        dsimp only at this
        rw [List.getElem?_set_self (by simp; omega)] at this
        simp at this
      · by_cases hd : q = dst
        · subst hd
          refine Or.inr ⟨rfl, by rw [e1, hcs], ?_⟩
          have := h.2
          dsimp only at this
          rw [List.getElem?_set_self (by omega)] at this
          rw [e2, this]
        · left
          have := h
          unfold RowAt at this
          dsimp only at this
          rwa [List.getElem?_set_ne (Ne.symm hs), List.getElem?_set_ne (Ne.symm hd), List.getElem?_set_ne (Ne.symm hd)] at this

/-- moving a pattern -/
theorem movePattern_spec {L src dst : Nat} (h1 : src < L) (h2 : dst < L) (hne : src ≠ dst) : ∀ (rows : List Row), Sized L rows →
    ∃ rows', movePattern src dst rows = some rows' ∧ Sized L rows' ∧ rows'.length = rows.length ∧
      (∀ i b, At rows i src b → At rows' i dst b) ∧ (∀ i q b, q ≠ src → q ≠ dst → (At rows' i q b ↔ At rows i q b)) ∧
      (∀ i b, ¬ At rows' i src b) ∧ (∀ i b, (∀ c, ¬ At rows i src c) → (At rows' i dst b ↔ At rows i dst b)) ∧
      ∀ i q b, At rows' i q b → At rows i q b ∨ q = dst ∧ At rows i src b := by
  intro rows
  induction rows with
  | nil =>
    intro _
    exact ⟨[], rfl, by simp [Sized], rfl, fun i b h => absurd h (at_nil _ _ _), fun i q b _ _ => Iff.rfl, fun i b => at_nil _ _ _,
      fun i b _ => Iff.rfl, fun i q b h => absurd h (at_nil _ _ _)⟩
  | cons r rows ih =>
    intro hs
    obtain ⟨⟨hp, hc⟩, hs'⟩ := Sized.cons.1 hs
    obtain ⟨r', e, hl, a1, a2, a3, a4, a5⟩ := moveRow_spec hp hc h1 h2 hne
    obtain ⟨rows', e', hs'', hlen, b1, b2, b3, b4, b5⟩ := ih hs'
    refine ⟨r' :: rows', by rw [movePattern, e, e'], Sized.cons.2 ⟨hl, hs''⟩, by simp [hlen], ?_, ?_, ?_, ?_, ?_⟩
    · intro i b
      cases i with
      | zero => rw [at_zero, at_zero]; exact a1 b
      | succ i => rw [at_succ, at_succ]; exact b1 i b
    · intro i q b hx hy
      cases i with
      | zero => rw [at_zero, at_zero]; exact a2 q b hx hy
      | succ i => rw [at_succ, at_succ]; exact b2 i q b hx hy
    · intro i b
      cases i with
      | zero => rw [at_zero]; exact a3 b
      | succ i => rw [at_succ]; exact b3 i b
    · intro i b
      cases i with
      | zero => simp only [at_zero]; exact a4 b
      | succ i => simp only [at_succ]; exact b4 i b
    · intro i q b
      cases i with
      | zero => simp only [at_zero]; exact a5 q b
      | succ i => simp only [at_succ]; exact b5 i q b

/-- no input is cared for at both positions -/
def Free (rows : List Row) (p q : Nat) : Prop := ∀ i b c, At rows i p b → At rows i q c → False

theorem unavailable_spec {L p q : Nat} (hp : p < L) : ∀ (rows : List Row), Sized L rows →
    ∃ u, unavailable rows p q = some u ∧ (u = false → Free rows p q) := by
  intro rows
  induction rows with
  | nil => intro _; exact ⟨false, rfl, fun _ i b c h => absurd h (at_nil _ _ _)⟩
  | cons r rows ih =>
    intro hs
    obtain ⟨⟨hpl, hc⟩, hs'⟩ := Sized.cons.1 hs
    obtain ⟨u, e, hu⟩ := ih hs'
    have e1 : r.care[p]? = some r.care[p] := List.getElem?_eq_getElem (by omega)
    refine ⟨_, by rw [unavailable, e1, e], ?_⟩
    intro h
    rw [Bool.or_eq_false_iff] at h
    intro i b c
    cases i with
    | zero =>
      rw [at_zero, at_zero]
      intro h1 h2
      have h3 : r.care[p] = true := by simpa [e1] using h1.1
      rw [h3, h2.1] at h
      simp at h
    | succ i => rw [at_succ, at_succ]; exact hu h.2 i b c

theorem firstFree_spec {L p : Nat} (hp : p < L) {rows : List Row} (hs : Sized L rows) : ∀ (k q : Nat),
    ∃ res, firstFree rows p q k = some res ∧ ∀ t, res = some t → q ≤ t ∧ t < q + k ∧ Free rows p t := by
  intro k
  induction k with
  | zero => intro q; exact ⟨none, rfl, fun t h => by cases h⟩
  | succ k ih =>
    intro q
    obtain ⟨u, e, hu⟩ := unavailable_spec (q := q) hp rows hs
    rw [firstFree, e]
    cases u with
    | false => exact ⟨some q, rfl, fun t h => by cases h; exact ⟨Nat.le_refl _, by omega, hu rfl⟩⟩
    | true =>
      obtain ⟨res, e', h⟩ := ih (q + 1)
      exact ⟨res, e', fun t ht => by obtain ⟨h1, h2, h3⟩ := h t ht; exact ⟨by omega, by omega, h3⟩⟩

theorem findSlot_spec {L p : Nat} (hp : p < L) {rows : List Row} (hs : Sized L rows) : ∀ (k block : Nat), block + k ≤ p / 64 + 1 →
    ∃ res, findSlot rows p block k = some res ∧ ∀ t, res = some t → t < p ∧ Free rows p t := by
  intro k
  induction k with
  | zero => intro block _; exact ⟨none, rfl, fun t h => by cases h⟩
  | succ k ih =>
    intro block hb
    obtain ⟨res, e, h⟩ := firstFree_spec hp hs 64 (64 * block)
    rw [findSlot, e]
    cases res with
    | none => exact ih (block + 1) (by omega)
    | some t =>
      obtain ⟨h1, h2, h3⟩ := h t rfl
      dsimp only
      split
      · rename_i hc
        refine ⟨some t, rfl, fun t' ht => ?_⟩
        cases ht
        exact ⟨by omega, h3⟩
      · exact ih (block + 1) (by omega)

/-- the patterns at the positions `P` are all present in `rows'` at the positions `Q` -/
def Keeps (rows rows' : List Row) (P Q : Nat → Prop) : Prop :=
  ∀ q, P q → ∃ q', Q q' ∧ ∀ i b, At rows i q b → At rows' i q' b

/-- nothing is invented -/
def Origin (rows rows' : List Row) : Prop := ∀ i q b, At rows' i q b → ∃ q', At rows i q' b

theorem Keeps.trans {a b c : List Row} {P Q R : Nat → Prop} (h : Keeps a b P Q) (h' : Keeps b c Q R) : Keeps a c P R := by
  intro q hq
  obtain ⟨q1, h1, h2⟩ := h q hq
  obtain ⟨q2, h3, h4⟩ := h' q1 h1
  exact ⟨q2, h3, fun i x hx => h4 i x (h2 i x hx)⟩

theorem Origin.trans {a b c : List Row} (h : Origin a b) (h' : Origin b c) : Origin a c := by
  intro i q x hx
  obtain ⟨q1, h1⟩ := h' i q x hx
  exact h i q1 x h1

theorem packLoop_spec {L packed : Nat} (start : Nat → Nat) : ∀ (k : Nat) (rows : List Row), Sized L rows → packed + k ≤ L →
    ∃ rows' e, packLoop start packed k rows = some (rows', e) ∧ Sized L rows' ∧ rows'.length = rows.length ∧
      e.Pairwise (· > ·) ∧ (∀ x ∈ e, 0 < x ∧ x < packed + k) ∧ Origin rows rows' ∧
      (∀ i q b, packed + k ≤ q → (At rows' i q b ↔ At rows i q b)) ∧
      Keeps rows rows' (fun q => q < packed + k) (fun q => q < packed + k ∧ q ∉ e) := by
  intro k
  induction k with
  | zero =>
    intro rows hs _
    exact ⟨rows, [], rfl, hs, rfl, .nil, by simp, fun i q b h => ⟨q, h⟩, fun i q b _ => Iff.rfl,
      fun q hq => ⟨q, ⟨hq, by simp⟩, fun i b h => h⟩⟩
  | succ k ih =>
    intro rows hs hL
    have hp : packed + k < L := by omega
    have hb : (if packed + k < 1024 then 0 else start (packed + k) % ((packed + k) / 64)) ≤ (packed + k) / 64 := by
      split
      · omega
      · exact Nat.le_of_lt (Nat.mod_lt _ (by omega))
    obtain ⟨res, e1, h1⟩ := findSlot_spec hp hs ((packed + k) / 64 + 1 - (if packed + k < 1024 then 0 else start (packed + k) % ((packed + k) / 64)))
      (if packed + k < 1024 then 0 else start (packed + k) % ((packed + k) / 64)) (by omega)
    rw [packLoop, e1]
    cases res with
    | none =>
      dsimp only
      obtain ⟨rows', e, e2, hs', hlen, hpw, hb', ho, hfix, hk⟩ := ih rows hs (by omega)
      refine ⟨rows', e, e2, hs', hlen, hpw, fun x hx => ⟨(hb' x hx).1, by have := (hb' x hx).2; omega⟩, ho,
        fun i q b hq => hfix i q b (by omega), ?_⟩
      intro q hq
      by_cases hq' : q < packed + k
      · obtain ⟨q', ⟨a1, a2⟩, a3⟩ := hk q hq'
        exact ⟨q', ⟨by omega, a2⟩, a3⟩
      · refine ⟨q, ⟨hq, fun hm => ?_⟩, fun i b h => (hfix i q b (by omega)).2 h⟩
        have := (hb' q hm).2
        omega
    | some t =>
      dsimp only
      obtain ⟨ht, hfree⟩ := h1 t rfl
      obtain ⟨rows1, e2, hs1, hlen1, m1, m2, m3, m4, m5⟩ := movePattern_spec (src := packed + k) (dst := t) hp (by omega) (by omega) rows hs
      rw [e2]
      dsimp only
      obtain ⟨rows', e, e3, hs', hlen, hpw, hb', ho, hfix, hk⟩ := ih rows1 hs1 (by omega)
      rw [e3]
      refine ⟨rows', (packed + k) :: e, rfl, hs', by omega, ?_, ?_, ?_, ?_, ?_⟩
      · refine List.pairwise_cons.2 ⟨fun x hx => (hb' x hx).2, hpw⟩
      · intro x hx
        rcases List.mem_cons.1 hx with rfl | hx
        · omega
        · exact ⟨(hb' x hx).1, by have := (hb' x hx).2; omega⟩
      · refine Origin.trans (fun i q b h => ?_) ho
        rcases m5 i q b h with h | ⟨_, h⟩
        · exact ⟨q, h⟩
        · exact ⟨_, h⟩
      · intro i q b hq
        rw [hfix i q b (by omega), m2 i q b (by omega) (by omega)]
      · have hk' : Keeps rows1 rows' (fun q => q < packed + k) (fun q => q < packed + (k + 1) ∧ q ∉ (packed + k) :: e) := by
          intro q hq
          obtain ⟨q', ⟨a1, a2⟩, a3⟩ := hk q hq
          refine ⟨q', ⟨by omega, fun hm => ?_⟩, a3⟩
          rcases List.mem_cons.1 hm with h | h
          · omega
          · exact a2 h
        refine Keeps.trans (b := rows1) ?_ hk'
        intro q hq
        by_cases hqp : q = packed + k
        · subst hqp
          exact ⟨t, ht, m1⟩
        · by_cases hqt : q = t
          · subst hqt
            refine ⟨q, ht, fun i b h => ?_⟩
            exact (m4 i b (fun c hc => hfree i c b hc h)).2 h
          · exact ⟨q, by omega, fun i b h => (m2 i q b hqp hqt).2 h⟩

theorem desc_lt {e : List Nat} (h : e.Pairwise (· > ·)) {a b x y : Nat} (hab : a < b) (ha : e[a]? = some x) (hb : e[b]? = some y) : y < x := by
  obtain ⟨la, rfl⟩ := List.getElem?_eq_some_iff.1 ha
  obtain ⟨lb, rfl⟩ := List.getElem?_eq_some_iff.1 hb
  exact List.pairwise_iff_getElem.1 h a b la lb hab

theorem skip_spec {e : List Nat} (hd : e.Pairwise (· > ·)) (hpos : ∀ x ∈ e, 0 < x) {i : Nat} (hi : i < e.length) :
    ∀ (f n j : Nat), i + 2 ≤ f + j → j ≤ i + 1 → j < e.length → 0 < n → (∀ (k : Nat) x, j ≤ k → e[k]? = some x → x < n) →
    ∃ n' j', skip e i f n j = some (n', j') ∧ j ≤ j' ∧ j' ≤ i + 1 ∧ n' + j' = n + j ∧ 0 < n' ∧
      (∀ (k : Nat) x, j' ≤ k → e[k]? = some x → x < n') ∧ (∀ x, j' ≤ i → e[j']? = some x → x < n' - 1) ∧
      ∀ q, n' ≤ q → q < n → ∃ k : Nat, k ≤ i ∧ e[k]? = some q := by
  intro f
  induction f with
  | zero => intro n j h1 h2; omega
  | succ f ih =>
    intro n j h1 h2 hj hn hlt
    obtain ⟨x, hx⟩ : ∃ x, e[j]? = some x := ⟨_, List.getElem?_eq_getElem hj⟩
    have hxn := hlt j x (Nat.le_refl _) hx
    have hx0 := hpos x (List.mem_of_getElem? hx)
    rw [skip, hx]
    dsimp only
    rw [if_neg (by omega)]
    split
    · rename_i hc
      have hxe : x = n - 1 := by omega
      rw [if_pos hxe]
      have hlt' : ∀ (k : Nat) y, j + 1 ≤ k → e[k]? = some y → y < n - 1 := by
        intro k y hk hy
        have := desc_lt hd (show j < k by omega) hx hy
        omega
      have hgap : ∀ q, n - 1 ≤ q → q < n → ∃ k : Nat, k ≤ i ∧ e[k]? = some q := by
        intro q h3 h4
        exact ⟨j, hc.2, by rw [hx, hxe]; congr 1; omega⟩
      split
      · rename_i hlast
        exact ⟨n - 1, j + 1, rfl, by omega, by omega, by omega, by omega, hlt', fun y h => by omega, hgap⟩
      · obtain ⟨n', j', e', a1, a2, a3, a4, a5, a6, a7⟩ := ih (n - 1) (j + 1) (by omega) (by omega) (by omega) (by omega) hlt'
        refine ⟨n', j', e', by omega, a2, by omega, a4, a5, a6, fun q h3 h4 => ?_⟩
        by_cases hq : q < n - 1
        · exact a7 q h3 hq
        · exact hgap q (by omega) h4
    · rename_i hc
      refine ⟨n, j, rfl, Nat.le_refl _, h2, rfl, hn, hlt, ?_, fun q h3 h4 => by omega⟩
      intro y hji hy
      have : y = x := Option.some.inj (hy.symm.trans hx)
      omega

theorem fill_spec {e : List Nat} (hd : e.Pairwise (· > ·)) (hpos : ∀ x ∈ e, 0 < x) {L : Nat} :
    ∀ (i n j : Nat) (rows : List Row), i ≤ e.length → j ≤ i → j < e.length → 0 < n → n ≤ L → Sized L rows →
    (∀ (k : Nat) x, j ≤ k → e[k]? = some x → x < n) →
    ∃ n' rows', fill e i n j rows = some (n', rows') ∧ Sized L rows' ∧ rows'.length = rows.length ∧ 0 < n' ∧ n' + i = n + j ∧
      Origin rows rows' ∧
      Keeps rows rows' (fun q => q < n ∧ ∀ k : Nat, k < i → e[k]? ≠ some q) (fun q => q < n') := by
  intro i
  induction i with
  | zero =>
    intro n j rows _ hj _ hn _ hs _
    exact ⟨n, rows, rfl, hs, rfl, hn, by omega, fun i q b h => ⟨q, h⟩, fun q hq => ⟨q, hq.1, fun _ _ h => h⟩⟩
  | succ i ih =>
    intro n j rows hi hj hje hn hL hs hlt
    obtain ⟨n1, j1, e1, a1, a2, a3, a4, a5, a6, a7⟩ := skip_spec hd hpos (show i < e.length by omega) (e.length + 1) n j (by omega) hj hje hn hlt
    rw [fill, e1]
    dsimp only
    split
    · rename_i hij
      refine ⟨n1, rows, rfl, hs, rfl, a4, by omega, fun i q b h => ⟨q, h⟩, fun q hq => ⟨q, ?_, fun _ _ h => h⟩⟩
      by_contra hq'
      obtain ⟨k, hk, hk'⟩ := a7 q (by omega) hq.1
      exact hq.2 k (by omega) hk'
    · rename_i hij
      obtain ⟨x, hx⟩ : ∃ x, e[i]? = some x := ⟨_, List.getElem?_eq_getElem (by omega)⟩
      obtain ⟨y, hy⟩ : ∃ y, e[j1]? = some y := ⟨_, List.getElem?_eq_getElem (by omega)⟩
      have hyn := a6 y (by omega) hy
      have hxy : x ≤ y := by
        rcases Nat.lt_or_ge j1 i with h | h
        · exact Nat.le_of_lt (desc_lt hd h hy hx)
        · have : j1 = i := by omega
          subst this
          rw [hx] at hy
          cases hy
          exact Nat.le_refl _
      rw [hx]
      dsimp only
      rw [if_neg (by omega)]
      obtain ⟨rows1, e2, hs1, hlen1, m1, m2, m3, m4, m5⟩ := movePattern_spec (src := n1 - 1) (dst := x) (L := L) (by omega) (by omega) (by omega) rows hs
      rw [e2]
      dsimp only
      have hne : ∀ (k : Nat), j1 ≤ k → e[k]? ≠ some (n1 - 1) := by
        intro k hk hk'
        rcases Nat.lt_or_ge j1 k with h | h
        · have := desc_lt hd h hy hk'
          omega
        · have : j1 = k := by omega
          subst this
          have := Option.some.inj (hy.symm.trans hk')
          omega
      obtain ⟨n', rows', e3, hs', hlen, b1, b2, ho, hk⟩ := ih (n1 - 1) j1 rows1 (by omega) (by omega) (by omega) (by omega) (by omega) hs1 (by
        intro k z hk hz
        rcases Nat.lt_or_ge j1 k with h | h
        · have := desc_lt hd h hy hz
          omega
        · have : j1 = k := by omega
          subst this
          rw [hz] at hy
          cases hy
          omega)
      refine ⟨n', rows', e3, hs', by omega, b1, by omega, ?_, ?_⟩
      · refine Origin.trans (fun i q b h => ?_) ho
        rcases m5 i q b h with h | ⟨_, h⟩
        · exact ⟨q, h⟩
        · exact ⟨_, h⟩
      · refine Keeps.trans (b := rows1) ?_ hk
        rintro q ⟨hq, hqe⟩
        have hqn : q < n1 := by
          by_contra h
          obtain ⟨k, hk1, hk2⟩ := a7 q (by omega) hq
          exact hqe k (by omega) hk2
        by_cases hq1 : q = n1 - 1
        · subst hq1
          refine ⟨x, ⟨by omega, fun k hk hk' => ?_⟩, m1⟩
          have := desc_lt hd hk hk' hx
          omega
        · have hqx : q ≠ x := fun h => hqe i (by omega) (by rw [h]; exact hx)
          exact ⟨q, ⟨by omega, fun k hk => hqe k (by omega)⟩, fun i b h => (m2 i q b hq1 hqx).2 h⟩

theorem at_take (n : Nat) (rows : List Row) (i q : Nat) (b : Bool) :
    At (rows.map fun r => ⟨r.pat.take n, r.care.take n⟩) i q b ↔ q < n ∧ At rows i q b := by
  unfold At RowAt
  constructor
  · rintro ⟨r, hr, h1, h2⟩
    rw [List.getElem?_map, Option.map_eq_some_iff] at hr
    obtain ⟨r0, hr0, rfl⟩ := hr
    have hq : q < n := by
      have := (List.getElem?_eq_some_iff.1 h1).1
      simp only [List.length_take] at this
      omega
    dsimp only at h1 h2
    rw [List.getElem?_take_of_lt hq] at h1 h2
    exact ⟨hq, r0, hr0, h1, h2⟩
  · rintro ⟨hq, r, hr, h1, h2⟩
    refine ⟨_, by rw [List.getElem?_map, hr]; rfl, ?_, ?_⟩
    · dsimp only; rw [List.getElem?_take_of_lt hq]; exact h1
    · dsimp only; rw [List.getElem?_take_of_lt hq]; exact h2

/-- all tables have as many bits as there are patterns -/
structure Inv (w : Nat) (s : Sim) : Prop where
  sized : Sized s.numPatterns s.rows
  packed : s.packed ≤ s.numPatterns
  width : s.rows.length = w

theorem packBits_spec {w : Nat} (start : Nat → Nat) (s : Sim) (h : Inv w s) :
    ∃ s' f, packBits start s = some (s', f) ∧ Inv w s' ∧ s'.numPatterns ≤ s.numPatterns ∧ (f = true ↔ s'.numPatterns < s.numPatterns) ∧
      Origin s.rows s'.rows ∧ Keeps s.rows s'.rows (fun q => q < s.numPatterns) (fun q => q < s'.numPatterns) := by
  unfold packBits
  have hid : Keeps s.rows s.rows (fun q => q < s.numPatterns) (fun q => q < s.numPatterns) := fun q hq => ⟨q, hq, fun _ _ h => h⟩
  have hio : Origin s.rows s.rows := fun i q b h => ⟨q, h⟩
  split
  · exact ⟨s, false, rfl, h, Nat.le_refl _, by simp, hio, hid⟩
  · rename_i hn
    split
    · exact ⟨s, false, rfl, h, Nat.le_refl _, by simp, hio, hid⟩
    · have hp := h.packed
      have hsum : s.packed + (s.numPatterns - s.packed) = s.numPatterns := by omega
      obtain ⟨rows, e, e1, hs, hlen, hpw, hb, ho, _, hk⟩ := packLoop_spec (L := s.numPatterns) (packed := s.packed) start
        (s.numPatterns - s.packed) s.rows h.sized (by omega)
      rw [hsum] at hb hk
      rw [e1]
      dsimp only
      split
      · rename_i hel
        obtain ⟨n', rows', e2, hs', hlen', c1, c2, ho', hk'⟩ := fill_spec hpw (fun x hx => (hb x hx).1) (L := s.numPatterns)
          e.length s.numPatterns 0 rows (Nat.le_refl _) (by omega) hel (by omega) (Nat.le_refl _) hs
          (fun k x _ hx => (hb x (List.mem_of_getElem? hx)).2)
        rw [e2]
        refine ⟨_, true, rfl, ⟨?_, Nat.le_refl _, by simp [hlen', hlen, h.width]⟩, by dsimp only; omega, by simp; omega, ?_, ?_⟩
        · intro r hr
          obtain ⟨r0, hr0, rfl⟩ := List.mem_map.1 hr
          have := hs' r0 hr0
          dsimp only
          rw [List.length_take, List.length_take]
          omega
        · intro i q b hx
          exact (ho.trans ho') i q b ((at_take _ _ _ _ _).1 hx).2
        · intro q hq
          obtain ⟨q1, ⟨d1, d2⟩, d3⟩ := hk q hq
          obtain ⟨q2, d4, d5⟩ := hk' q1 ⟨d1, fun k _ hk => d2 (List.mem_of_getElem? hk)⟩
          exact ⟨q2, d4, fun i b hx => (at_take _ _ _ _ _).2 ⟨d4, d5 i b (d3 i b hx)⟩⟩
      · refine ⟨_, false, rfl, ⟨hs, Nat.le_refl _, by rw [hlen, h.width]⟩, Nat.le_refl _, by simp, ho, ?_⟩
        intro q hq
        obtain ⟨q1, ⟨d1, d2⟩, d3⟩ := hk q hq
        exact ⟨q1, d1, d3⟩

theorem addBit_eq {x86 : Bool} {t t' : List Bool} {b : Bool} (h : addBit x86 t b = some t') : t' = t ++ [b] := by
  unfold addBit at h
  split at h
  · cases h
  · exact (Option.some.inj h).symm

theorem addRows_spec {x86 : Bool} {L : Nat} : ∀ (rows : List Row) (bs : List (Bool × Bool)) (rows' : List Row), Sized L rows →
    bs.length = rows.length → addRows x86 rows bs = some rows' → Sized (L + 1) rows' ∧ rows'.length = rows.length ∧
      (∀ i q b, At rows i q b → At rows' i q b) ∧ (∀ i b, bs[i]? = some (b, true) → At rows' i L b) ∧
      ∀ i q b, At rows' i q b → At rows i q b ∨ q = L ∧ bs[i]? = some (b, true) := by
  intro rows
  induction rows with
  | nil =>
    intro bs rows' _ hl h
    cases bs with
    | nil =>
      rw [addRows] at h
      cases h
      exact ⟨by simp [Sized], rfl, fun _ _ _ h => h, fun i b h => by simp at h, fun _ _ _ h => Or.inl h⟩
    | cons _ _ => simp at hl
  | cons r rows ih =>
    intro bs rows' hs hl h
    cases bs with
    | nil => simp at hl
    | cons c bs =>
      obtain ⟨⟨hp, hc⟩, hs'⟩ := Sized.cons.1 hs
      rw [addRows] at h
      split at h
      · rename_i p q rest e1 e2 e3
        cases h
        obtain ⟨g1, g2, g3, g4, g5⟩ := ih bs rest hs' (by simpa using hl) e3
        rw [addBit_eq e1, addBit_eq e2]
        refine ⟨Sized.cons.2 ⟨⟨by simp [hp], by simp [hc]⟩, g1⟩, by simp [g2], ?_, ?_, ?_⟩
        · intro i q b
          cases i with
          | zero =>
            rw [at_zero, at_zero]
            rintro ⟨a1, a2⟩
            have l1 := (List.getElem?_eq_some_iff.1 a1).1
            have l2 := (List.getElem?_eq_some_iff.1 a2).1
            exact ⟨by rw [List.getElem?_append_left l1]; exact a1, by rw [List.getElem?_append_left l2]; exact a2⟩
          | succ i => rw [at_succ, at_succ]; exact g3 i q b
        · intro i b
          cases i with
          | zero =>
            intro hb
            rw [List.getElem?_cons_zero] at hb
            cases hb
            rw [at_zero]
            refine ⟨?_, ?_⟩
            · dsimp only; rw [← hc, List.getElem?_concat_length]
            · dsimp only; rw [← hp, List.getElem?_concat_length]
          | succ i => rw [at_succ, List.getElem?_cons_succ]; exact g4 i b
        · intro i q b
          cases i with
          | zero =>
            rw [at_zero, at_zero, List.getElem?_cons_zero]
            rintro ⟨a1, a2⟩
            dsimp only at a1 a2
            have l1 := (List.getElem?_eq_some_iff.1 a1).1
            simp only [List.length_append, List.length_singleton] at l1
            rcases Nat.lt_or_ge q L with hq | hq
            · rw [List.getElem?_append_left (by omega)] at a1 a2
              exact Or.inl ⟨a1, a2⟩
            · have hq' : q = L := by omega
              refine Or.inr ⟨hq', ?_⟩
              rw [hq'] at a1 a2
              rw [← hc, List.getElem?_concat_length] at a1
              rw [← hp, List.getElem?_concat_length] at a2
              obtain ⟨u, v⟩ := c
              simp only [Option.some.injEq] at a1 a2
              rw [a1, a2]
          | succ i => rw [at_succ, at_succ, List.getElem?_cons_succ]; exact g5 i q b
      · cases h

theorem addRows_x86 : ∀ (rows : List Row) (bs : List (Bool × Bool)), bs.length = rows.length → ∃ rows', addRows true rows bs = some rows' := by
  intro rows
  induction rows with
  | nil =>
    intro bs h
    cases bs with
    | nil => exact ⟨[], rfl⟩
    | cons _ _ => simp at h
  | cons r rows ih =>
    intro bs h
    cases bs with
    | nil => simp at h
    | cons c bs =>
      obtain ⟨rows', e⟩ := ih bs (by simpa using h)
      exact ⟨⟨r.pat ++ [c.1], r.care ++ [c.2]⟩ :: rows', by rw [addRows, e]; simp [addBit]⟩

theorem randomRow_get : ∀ (p c t : List Bool) (q : Nat), p.length = c.length → p.length = t.length → 
    (randomRow p c t).length = p.length ∧ (c[q]? = some true → (randomRow p c t)[q]? = p[q]?) := by
  intro p
  induction p with
  | nil =>
    intro c t q h1 h2
    cases c <;> simp at h1
    simp [randomRow]
  | cons a p ih =>
    intro c t q h1 h2
    cases c with
    | nil => simp at h1
    | cons b c =>
      cases t with
      | nil => simp at h2
      | cons d t =>
        have h := fun q => ih c t q (by simpa using h1) (by simpa using h2)
        rw [randomRow]
        refine ⟨by simp [(h 0).1], ?_⟩
        cases q with
        | zero => intro hb; simp only [List.getElem?_cons_zero, Option.some.injEq] at hb ⊢; simp [hb]
        | succ q => simpa using (h q).2

theorem randomize_spec {L : Nat} (rnd : Nat → Nat → Bool) : ∀ (rows : List Row) (j : Nat), Sized L rows →
    Sized L (randomizeFrom rnd L j rows) ∧ (randomizeFrom rnd L j rows).length = rows.length ∧
      ∀ i q b, At (randomizeFrom rnd L j rows) i q b ↔ At rows i q b := by
  intro rows
  induction rows with
  | nil => intro j _; exact ⟨by simp [Sized, randomizeFrom], rfl, fun _ _ _ => Iff.rfl⟩
  | cons r rows ih =>
    intro j hs
    obtain ⟨⟨hp, hc⟩, hs'⟩ := Sized.cons.1 hs
    obtain ⟨h1, h2, h3⟩ := ih (j + 1) hs'
    have hr := fun q => randomRow_get r.pat r.care ((List.range L).map (rnd j)) q (by omega) (by simp [hp])
    rw [randomizeFrom]
    refine ⟨Sized.cons.2 ⟨⟨(hr 0).1.trans hp, hc⟩, h1⟩, by simp [h2], ?_⟩
    intro i q b
    cases i with
    | zero =>
      rw [at_zero, at_zero]
      constructor
      · rintro ⟨a1, a2⟩
        exact ⟨a1, by rw [← (hr q).2 a1]; exact a2⟩
      · rintro ⟨a1, a2⟩
        exact ⟨a1, by dsimp only; rw [(hr q).2 a1]; exact a2⟩
    | succ i => rw [at_succ, at_succ]; exact h3 i q b

end Verif.Pack
