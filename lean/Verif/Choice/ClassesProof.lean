import Verif.Choice.Classes
import Verif.Props.C39
import Mathlib.NumberTheory.Bertrand

set_option autoImplicit false

/-!
# Invariants of the candidate classes
-/

namespace Verif.Choice
open Aig (WF Built)

/-- the classes are sorted lists that partition the nodes, and every non-empty class belongs to its first member -/
structure Classes.Ok (K : Classes) (size : Nat) : Prop where
  len : K.id2class.length = size
  lenr : K.reprs.length = size
  sorted : ∀ (r : Nat) (l : List Nat), K.id2class[r]? = some l → l.Pairwise (· < ·)
  mem : ∀ (r : Nat) (l : List Nat), K.id2class[r]? = some l → ∀ c : Nat, c ∈ l ↔ K.reprs[c]? = some r
  head : ∀ (r : Nat) (l : List Nat), K.id2class[r]? = some l → l ≠ [] → l.head? = some r
  bound : ∀ c r : Nat, K.reprs[c]? = some r → r < size

theorem Classes.Ok.get {K : Classes} {size : Nat} (h : K.Ok size) {r : Nat} (hr : r < size) : ∃ l, K.id2class[r]? = some l := by
  rw [← h.len] at hr
  exact ⟨_, List.getElem?_eq_getElem hr⟩

theorem Classes.Ok.repr {K : Classes} {size : Nat} (h : K.Ok size) {c r : Nat} (hc : K.reprs[c]? = some r) :
    r ≤ c ∧ K.reprs[r]? = some r := by
  obtain ⟨l, hl⟩ := h.get (h.bound c r hc)
  have hm := (h.mem r l hl c).2 hc
  have hh := h.head r l hl (List.ne_nil_of_mem hm)
  have hs := h.sorted r l hl
  cases l with
  | nil => simp at hm
  | cons x l =>
      obtain rfl : x = r := by simpa using hh
      refine ⟨?_, (h.mem _ _ hl _).1 List.mem_cons_self⟩
      rcases List.mem_cons.1 hm with rfl | hm
      · exact Nat.le_refl _
      · exact Nat.le_of_lt ((List.pairwise_cons.1 hs).1 c hm)

theorem Classes.Ok.lt {K : Classes} {size : Nat} (h : K.Ok size) {c r : Nat} (hc : K.reprs[c]? = some r) : c < size := by
  have := (List.getElem?_eq_some_iff.1 hc).1
  rwa [h.lenr] at this

theorem setReprs_get : ∀ (l : List Nat) (r : Nat) (m : List Nat) (c : Nat),
    (setReprs l r m)[c]? = if c ∈ l ∧ c < m.length then some r else m[c]?
  | [], r, m, c => by simp [setReprs]
  | x :: l, r, m, c => by
      have := setReprs_get l r (m.set x r) c
      simp only [setReprs, List.foldl_cons] at this ⊢
      rw [this, List.length_set, List.getElem?_set]
      by_cases h1 : c ∈ l
      · by_cases h2 : c < m.length
        · rw [if_pos ⟨h1, h2⟩, if_pos ⟨List.mem_cons_of_mem _ h1, h2⟩]
        · have : m[c]? = none := List.getElem?_eq_none (by omega)
          simp only [h2, and_false, if_false, this]
          split
          · next h => rw [if_neg (by omega)]
          · rfl
      · rw [if_neg (fun h => h1 h.1)]
        by_cases h3 : x = c
        · subst h3
          rw [if_pos rfl]
          by_cases h2 : x < m.length
          · rw [if_pos h2, if_pos ⟨List.mem_cons_self, h2⟩]
          · rw [if_neg h2, if_neg (fun h => h2 h.2), List.getElem?_eq_none (by omega)]
        · rw [if_neg h3, if_neg]
          rintro ⟨h, -⟩
          rcases List.mem_cons.1 h with h | h
          · exact h3 h.symm
          · exact h1 h

theorem setReprs_length (l : List Nat) (r : Nat) : ∀ m : List Nat, (setReprs l r m).length = m.length := by
  induction l with
  | nil => intro m; rfl
  | cons x l ih => intro m; exact (ih (m.set x r)).trans (by simp)

/-- the classes become finer, but nodes the comparison does not tell apart stay together -/
structure Refines (eq : Nat → Nat → Bool) (K K' : Classes) : Prop where
  finer : ∀ a b : Nat, K'.reprs[a]? = K'.reprs[b]? → K.reprs[a]? = K.reprs[b]?
  kept : ∀ a b : Nat, (∀ s, eq s a = eq s b) → K.reprs[a]? = K.reprs[b]? → K'.reprs[a]? = K'.reprs[b]?

theorem Refines.refl (eq : Nat → Nat → Bool) (K : Classes) : Refines eq K K := ⟨fun _ _ h => h, fun _ _ _ h => h⟩

theorem Refines.trans {eq : Nat → Nat → Bool} {K K' K'' : Classes} (h : Refines eq K K') (h' : Refines eq K' K'') : Refines eq K K'' :=
  ⟨fun a b e => h.finer a b (h'.finer a b e), fun a b e e' => h'.kept a b e (h.kept a b e e')⟩

/-- what one call of `refine_one_class` for the class of `r` does -/
structure RefineSpec (eq : Nat → Nat → Bool) (size r : Nat) (K K' : Classes) : Prop where
  ok : K'.Ok size
  refines : Refines eq K K'
  stay : ∀ c : Nat, K.reprs[c]? ≠ some r → K'.reprs[c]? = K.reprs[c]?
  move : ∀ c x : Nat, K.reprs[c]? = some r → K'.reprs[c]? = some x → r ≤ x
  hom : ∀ c : Nat, K'.reprs[c]? = some r → eq r c = true
  old : ∀ c : Nat, K.reprs[c]? = some r → eq r c = true → K'.reprs[c]? = some r

theorem split_spec {eq : Nat → Nat → Bool} {size r : Nat} {K : Classes} (h : K.Ok size) (heq : eq r r = true) {l : List Nat}
    (hl : K.id2class[r]? = some l) {s : Nat} {new : List Nat} (hn : (l.filter fun n => !eq r n) = s :: new) :
    RefineSpec eq size r K (K.split r (l.filter (eq r)) s (s :: new)) ∧ r < s ∧ s < size ∧
      (K.split r (l.filter (eq r)) s (s :: new)).id2class[s]? = some (s :: new) := by
  have hnew : ∀ c, c ∈ s :: new ↔ K.reprs[c]? = some r ∧ eq r c = false := by
    intro c
    rw [← hn, List.mem_filter, h.mem r l hl c]
    simp
  obtain ⟨hsr, hse⟩ := (hnew s).1 List.mem_cons_self
  have hne : s ≠ r := by rintro rfl; rw [heq] at hse; cases hse
  have hlt : r < s := lt_of_le_of_ne (h.repr hsr).1 (Ne.symm hne)
  have hss : s < size := h.lt hsr
  have hrs : r < size := h.bound _ _ hsr
  have hset : ∀ c : Nat, (K.split r (l.filter (eq r)) s (s :: new)).reprs[c]? = if c ∈ s :: new then some s else K.reprs[c]? := by
    intro c
    simp only [Classes.split]
    rw [setReprs_get]
    by_cases hc : c ∈ s :: new
    · have : c < K.reprs.length := by rw [h.lenr]; exact h.lt ((hnew c).1 hc).1
      rw [if_pos ⟨hc, this⟩, if_pos hc]
    · rw [if_neg (fun h => hc h.1), if_neg hc]
  have hcls : ∀ q : Nat, (K.split r (l.filter (eq r)) s (s :: new)).id2class[q]? =
      if s = q then some (s :: new) else if r = q then some (l.filter (eq r)) else K.id2class[q]? := by
    intro q
    simp only [Classes.split]
    rw [List.getElem?_set, List.getElem?_set]
    have h1 : s < (K.id2class.set r (l.filter (eq r))).length := by rw [List.length_set, h.len]; exact hss
    have h2 : r < K.id2class.length := by rw [h.len]; exact hrs
    by_cases hq : s = q
    · rw [if_pos hq, if_pos hq]; rw [if_pos h1]
    · rw [if_neg hq, if_neg hq]
      by_cases hq2 : r = q
      · rw [if_pos hq2, if_pos hq2]; rw [if_pos h2]
      · rw [if_neg hq2, if_neg hq2]
  have hnos : ∀ c : Nat, K.reprs[c]? ≠ some s := by
    intro c hc
    have := (h.repr hc).2
    rw [hsr] at this
    exact hne (Option.some.inj this).symm
  have hok : (K.split r (l.filter (eq r)) s (s :: new)).Ok size := by
    refine ⟨?_, ?_, ?_, ?_, ?_, ?_⟩
    · simp [Classes.split, h.len]
    · simp only [Classes.split]; rw [setReprs_length, h.lenr]
    · intro q lq hq
      rw [hcls] at hq
      split at hq
      · obtain rfl := Option.some.inj hq
        rw [← hn]
        exact (h.sorted r l hl).filter _
      · split at hq
        · obtain rfl := Option.some.inj hq
          exact (h.sorted r l hl).filter _
        · exact h.sorted q lq hq
    · intro q lq hq c
      rw [hcls] at hq
      rw [hset]
      split at hq
      · next hsq =>
        subst hsq
        obtain rfl := Option.some.inj hq
        by_cases hc : c ∈ s :: new
        · simp only [hc, if_true]
        · simp only [hc, if_false, false_iff]; exact hnos c
      · next hsq =>
        split at hq
        · next hrq =>
          subst hrq
          obtain rfl := Option.some.inj hq
          rw [List.mem_filter, h.mem r l hl c]
          by_cases hc : c ∈ s :: new
          · rw [if_pos hc]
            simp only [((hnew c).1 hc).2, Bool.false_eq_true, and_false, false_iff]
            simpa using hne
          · rw [if_neg hc]
            refine ⟨And.left, fun hh => ⟨hh, ?_⟩⟩
            rw [hnew] at hc
            by_contra hx
            exact hc ⟨hh, by simpa using hx⟩
        · next hrq =>
          rw [h.mem q lq hq c]
          by_cases hc : c ∈ s :: new
          · rw [if_pos hc, ((hnew c).1 hc).1]
            simp [hsq, hrq]
          · rw [if_neg hc]
    · intro q lq hq hne'
      rw [hcls] at hq
      split at hq
      · next hsq => subst hsq; obtain rfl := Option.some.inj hq; rfl
      · split at hq
        · next hrq =>
          subst hrq
          obtain rfl := Option.some.inj hq
          have hm : r ∈ l := (h.mem r l hl r).2 (h.repr hsr).2
          have hh := h.head r l hl (List.ne_nil_of_mem hm)
          cases l with
          | nil => simp at hm
          | cons x l =>
              obtain rfl : x = r := by simpa using hh
              simp [heq]
        · exact h.head q lq hq hne'
    · intro c q hc
      rw [hset] at hc
      split at hc
      · obtain rfl := Option.some.inj hc; exact hss
      · exact h.bound c q hc
  refine ⟨⟨hok, ⟨?_, ?_⟩, ?_, ?_, ?_, ?_⟩, hlt, hss, by rw [hcls, if_pos rfl]⟩
  · intro a b hab
    rw [hset, hset] at hab
    by_cases ha : a ∈ s :: new <;> by_cases hb : b ∈ s :: new
    · rw [((hnew a).1 ha).1, ((hnew b).1 hb).1]
    · rw [if_pos ha, if_neg hb] at hab; exact absurd hab.symm (hnos b)
    · rw [if_neg ha, if_pos hb] at hab; exact absurd hab (hnos a)
    · rwa [if_neg ha, if_neg hb] at hab
  · intro a b he hab
    rw [hset, hset]
    have : a ∈ s :: new ↔ b ∈ s :: new := by rw [hnew, hnew, hab, he r]
    simp only [this, hab]
  · intro c hc
    rw [hset, if_neg (fun hm => hc ((hnew c).1 hm).1)]
  · intro c x hc hx
    rw [hset] at hx
    split at hx
    · obtain rfl := Option.some.inj hx; omega
    · rw [hc] at hx; obtain rfl := Option.some.inj hx; exact Nat.le_refl _
  · intro c hc
    rw [hset] at hc
    split at hc
    · exact absurd (Option.some.inj hc) hne
    · next hm =>
      rw [hnew] at hm
      by_contra hx
      exact hm ⟨hc, by simpa using hx⟩
  · intro c hc he
    rw [hset, if_neg, hc]
    rw [hnew]
    rintro ⟨_, hx⟩
    rw [he] at hx; cases hx

theorem refineOne_spec {eq : Nat → Nat → Bool} {recursively : Bool} {size : Nat} (heq : ∀ n, n < size → eq n n = true) :
    ∀ (fuel r : Nat) (K : Classes) (l : List Nat), K.Ok size → K.id2class[r]? = some l → l.length < fuel →
    ∃ k K', refineOne eq recursively fuel r K = some (k, K') ∧ RefineSpec eq size r K K'
  | 0, _, _, _, _, _, hf => by omega
  | fuel + 1, r, K, l, h, hl, hf => by
      rw [refineOne, hl]; dsimp only
      have hrs : r < size := by rw [← h.len]; exact (List.getElem?_eq_some_iff.1 hl).1
      cases hn : l.filter fun n => !eq r n with
      | nil =>
          refine ⟨0, K, rfl, h, .refl _ _, fun _ _ => rfl, ?_, ?_, fun c hc _ => hc⟩
          · intro c x h1 h2
            rw [h1] at h2; obtain rfl := Option.some.inj h2; exact Nat.le_refl _
          · intro c hc
            have := (h.mem r l hl c).2 hc
            rw [List.filter_eq_nil_iff] at hn
            simpa using hn c this
      | cons s new =>
          obtain ⟨hS, hlt, hss, hcs⟩ := split_spec h (heq r hrs) hl hn
          dsimp only
          split
          · have hrl : r ∈ l := by
              rw [h.mem r l hl]
              have : s ∈ l := by
                have : s ∈ l.filter fun n => !eq r n := by rw [hn]; exact List.mem_cons_self
                exact List.mem_of_mem_filter this
              exact (h.repr ((h.mem r l hl s).1 this)).2
            have hlen : (s :: new).length < l.length := by
              rw [← hn]
              refine lt_of_le_of_ne (List.length_filter_le _ _) fun e => ?_
              have := List.length_filter_eq_length_iff.1 e r hrl
              rw [heq r hrs] at this; cases this
            obtain ⟨k, K', e, hS'⟩ := refineOne_spec heq fuel s _ _ hS.ok hcs (by omega)
            rw [e]
            refine ⟨_, K', rfl, hS'.ok, hS.refines.trans hS'.refines, ?_, ?_, ?_, ?_⟩
            · intro c hc
              have h1 := hS.stay c hc
              rw [← h1]
              refine hS'.stay c fun h2 => hc ?_
              rw [h1] at h2
              have h3 := (h.repr h2).2
              have : s ∈ l := by
                have : s ∈ l.filter fun n => !eq r n := by rw [hn]; exact List.mem_cons_self
                exact List.mem_of_mem_filter this
              rw [(h.mem r l hl s).1 this] at h3
              rw [Option.some.inj h3] at hlt
              omega
            · intro c x hc hx
              by_cases h2 : (K.split r (l.filter (eq r)) s (s :: new)).reprs[c]? = some s
              · have := hS'.move c x h2 hx; omega
              · rw [hS'.stay c h2] at hx
                exact hS.move c x hc hx
            · intro c hc
              by_cases h2 : (K.split r (l.filter (eq r)) s (s :: new)).reprs[c]? = some s
              · have := hS'.move c r h2 hc; omega
              · rw [hS'.stay c h2] at hc
                exact hS.hom c hc
            · intro c hc he
              have h1 := hS.old c hc he
              rw [hS'.stay c (by rw [h1]; intro h2; have := Option.some.inj h2; omega), h1]
          · exact ⟨_, _, rfl, hS⟩

theorem Classes.Ok.class_length {K : Classes} {size : Nat} (h : K.Ok size) {r : Nat} {l : List Nat} (hl : K.id2class[r]? = some l) :
    l.length ≤ size :=
  nodup_bound ((h.sorted r l hl).imp fun h => Nat.ne_of_lt h) fun c hc => h.lt ((h.mem r l hl c).1 hc)

theorem refineLoop_spec {eq : Nat → Nat → Bool} {recursively : Bool} {size : Nat} (heq : ∀ n, n < size → eq n n = true) :
    ∀ (k i c : Nat) (K : Classes), K.Ok size → i + k = size → (∀ q, q < i → ∀ c : Nat, K.reprs[c]? = some q → eq q c = true) →
    ∃ c' K', refineLoop eq recursively (List.range' i k) (c, K) = some (c', K') ∧ K'.Ok size ∧ Refines eq K K' ∧
      ∀ q, q < size → ∀ c : Nat, K'.reprs[c]? = some q → eq q c = true
  | 0, i, c, K, h, hi, hh => ⟨c, K, rfl, h, .refl _ _, by rw [← hi]; simpa using hh⟩
  | k + 1, i, c, K, h, hi, hh => by
      obtain ⟨l, hl⟩ := h.get (r := i) (by omega)
      rw [List.range'_succ, refineLoop, hl]; dsimp only
      cases l with
      | nil =>
          dsimp only
          refine refineLoop_spec heq k (i + 1) c K h (by omega) fun q hq c hc => ?_
          by_cases hqi : q = i
          · subst hqi
            have := (h.mem q [] hl c).2 hc
            simp at this
          · exact hh q (by omega) c hc
      | cons x l =>
          dsimp only
          have hlen := h.class_length hl
          obtain ⟨k', K', e, hS⟩ := refineOne_spec (recursively := recursively) heq (K.id2class.length + 1) i K _ h hl (by rw [h.len]; omega)
          rw [e]; dsimp only
          obtain ⟨c'', K'', e2, h1, h2, h3⟩ := refineLoop_spec (recursively := recursively) heq k (i + 1) (c + k') K' hS.ok (by omega) (by
            intro q hq c hc
            by_cases hqi : q = i
            · subst hqi; exact hS.hom c hc
            · by_cases hci : K.reprs[c]? = some i
              · have := hS.move c q hci hc; omega
              · rw [hS.stay c hci] at hc
                exact hh q (by omega) c hc)
          exact ⟨c'', K'', e2, h1, hS.refines.trans h2, h3⟩

theorem refineClasses_spec {eq : Nat → Nat → Bool} {recursively : Bool} {size : Nat} (heq : ∀ n, n < size → eq n n = true) {K : Classes}
    (h : K.Ok size) : ∃ c K', refineClasses eq recursively K = some (c, K') ∧ K'.Ok size ∧ Refines eq K K' ∧
      ∀ q c : Nat, K'.reprs[c]? = some q → eq q c = true := by
  obtain ⟨c', K', e, h1, h2, h3⟩ := refineLoop_spec (recursively := recursively) heq size 0 0 K h (by omega) (by omega)
  refine ⟨c', K', ?_, h1, h2, fun q c hc => h3 q (h1.bound c q hc) c hc⟩
  rw [refineClasses, h.len, List.range_eq_range']; exact e

/-! ### the size of the hash table -/

theorem noDivisor_prime {p : Nat} (hp : Nat.Prime p) : ∀ (fuel i : Nat), 3 ≤ i → p + 1 < fuel + i → 0 < fuel → noDivisor p fuel i = some true
  | 0, i, hi, hf, hp' => by omega
  | fuel + 1, i, hi, hf, _ => by
      rw [noDivisor]
      split
      · next h =>
        have : 3 * i ≤ i * i := Nat.mul_le_mul_right i hi
        rw [if_neg]
        · exact noDivisor_prime hp fuel (i + 2) (by omega) (by omega) (by omega)
        · intro h0
          rcases (Nat.dvd_prime hp).1 (Nat.dvd_of_mod_eq_zero h0) with rfl | rfl
          · omega
          · omega
      · rfl

theorem noDivisor_total {p : Nat} : ∀ (fuel i : Nat), 3 ≤ i → p + 1 < fuel + i → 0 < fuel → ∃ b, noDivisor p fuel i = some b
  | 0, i, hi, hf, hp' => by omega
  | fuel + 1, i, hi, hf, _ => by
      rw [noDivisor]
      split
      · next h =>
        have : 3 * i ≤ i * i := Nat.mul_le_mul_right i hi
        split
        · exact ⟨_, rfl⟩
        · exact noDivisor_total fuel (i + 2) (by omega) (by omega) (by omega)
      · exact ⟨_, rfl⟩

theorem primeFrom_up {q : Nat} (hq : Nat.Prime q) (hodd : q % 2 = 1) : ∀ (fuel p : Nat), p ≤ q → q < p + fuel →
    ∃ s, primeFrom fuel p = some s ∧ p ≤ s ∧ 0 < s
  | 0, p, h1, h2 => by omega
  | fuel + 1, p, h1, h2 => by
      rw [primeFrom]
      have hstep : p < q → ∃ s, primeFrom fuel (p + 1) = some s ∧ p ≤ s ∧ 0 < s := fun h => by
        obtain ⟨s, e, h3, h4⟩ := primeFrom_up hq hodd fuel (p + 1) (by omega) (by omega)
        exact ⟨s, e, by omega, h4⟩
      by_cases ho : p % 2 = 1
      · rw [if_pos ho]
        obtain ⟨b, hb⟩ := noDivisor_total (p := p) (p + 1) 3 (by omega) (by omega) (by omega)
        rw [hb]
        cases b with
        | true => exact ⟨p, rfl, Nat.le_refl _, by omega⟩
        | false =>
            refine hstep (lt_of_le_of_ne h1 ?_)
            rintro rfl
            rw [noDivisor_prime hq (p + 1) 3 (by omega) (by omega) (by omega)] at hb
            cases hb
      · rw [if_neg ho]
        exact hstep (lt_of_le_of_ne h1 (by rintro rfl; exact ho hodd))

theorem primeFrom_spec (p : Nat) : ∃ s, primeFrom (2 * p + 2) p = some s ∧ p ≤ s ∧ 0 < s := by
  rcases Nat.lt_or_ge p 2 with h | h
  · refine ⟨1, ?_, by omega, by omega⟩
    have : p = 0 ∨ p = 1 := by omega
    rcases this with rfl | rfl <;> decide
  · obtain ⟨q, hq, h1, h2⟩ := Nat.exists_prime_lt_and_le_two_mul p (by omega)
    refine primeFrom_up hq ?_ _ p (by omega) (by omega)
    rcases hq.eq_two_or_odd with h | h
    · omega
    · exact h

/-! ### simulation -/

theorem inputWords_spec {nwords : Nat} (hw : 0 < nwords) (rand : Nat → Nat) (c : Nat) :
    ∃ ws, inputWords nwords rand c = some ws ∧ ws.length = nwords := by
  rw [inputWords]
  cases e : (List.range nwords).map fun i => BitVec.ofNat 64 (rand (c + i)) with
  | nil =>
      have := congrArg List.length e
      simp at this; omega
  | cons w t =>
      have := congrArg List.length e
      exact ⟨_, rfl, by simpa using this.symm⟩

theorem simInputs_spec {nwords : Nat} (hw : 0 < nwords) {rand : Nat → Nat} : ∀ (l : List Nat) (sim : Sims) (c : Nat), l.Nodup →
    (∀ i ∈ l, i < sim.length) → (∀ ws ∈ sim, ws.length = nwords) →
    ∃ sim', simInputs nwords rand l (sim, c) = some (sim', c + l.length * nwords) ∧ sim'.length = sim.length ∧
      (∀ ws ∈ sim', ws.length = nwords) ∧ (∀ x : Nat, x ∉ l → sim'[x]? = sim[x]?) ∧
      ∀ k n : Nat, l[k]? = some n → sim'[n]? = inputWords nwords rand (c + k * nwords)
  | [], sim, c, _, _, h => ⟨sim, by simp [simInputs], rfl, h, fun _ _ => rfl, by simp⟩
  | i :: l, sim, c, hnd, hl, h => by
      rw [simInputs]
      obtain ⟨ws, hws, hwl⟩ := inputWords_spec hw rand c
      rw [hws]; dsimp only
      rw [if_pos (hl i List.mem_cons_self)]
      rw [List.nodup_cons] at hnd
      obtain ⟨sim', e, h1, h2, h3, h4⟩ := simInputs_spec hw (rand := rand) l (sim.set i ws) (c + nwords) hnd.2
        (fun j hj => by rw [List.length_set]; exact hl j (List.mem_cons_of_mem _ hj)) (fun x hx => by
          rcases List.mem_or_eq_of_mem_set hx with hx | rfl
          · exact h x hx
          · exact hwl)
      refine ⟨sim', ?_, by rw [h1, List.length_set], h2, fun x hx => ?_, ?_⟩
      · rw [e, List.length_cons, Nat.add_mul, Nat.one_mul, Nat.add_assoc, Nat.add_comm nwords]
      · rw [List.mem_cons, not_or] at hx
        rw [h3 x hx.2, List.getElem?_set, if_neg (fun h => hx.1 h.symm)]
      · intro k n hk
        cases k with
        | zero =>
            obtain rfl : i = n := by simpa using hk
            rw [h3 i hnd.1, List.getElem?_set_self (hl i List.mem_cons_self), Nat.zero_mul, Nat.add_zero, hws]
        | succ k =>
            rw [h4 k n (by simpa using hk), Nat.add_mul, Nat.one_mul, Nat.add_assoc, Nat.add_comm nwords]

theorem simGates_spec {N : Aig} (hN : WF N) {nwords : Nat} : ∀ (l : List Nat) (sim : Sims), l.Pairwise (· < ·) →
    (∀ n ∈ l, ∃ a b, N.IsGate n a b) → sim.length = N.nodes.length → (∀ ws ∈ sim, ws.length = nwords) →
    ∃ sim', simGates N l sim = some sim' ∧ sim'.length = sim.length ∧ (∀ ws ∈ sim', ws.length = nwords) ∧
      (∀ x : Nat, x ∉ l → sim'[x]? = sim[x]?) ∧
      ∀ n ∈ l, ∀ a b, N.IsGate n a b → ∃ x y, sim'[a.index]? = some x ∧ sim'[b.index]? = some y ∧
        sim'[n]? = some (List.zipWith (gateWord a.compl b.compl) x y)
  | [], sim, _, _, _, h => ⟨sim, rfl, rfl, h, fun _ _ => rfl, by simp⟩
  | n :: l, sim, hs, hg, hlen, h => by
      obtain ⟨a, b, g⟩ := hg n List.mem_cons_self
      obtain ⟨l1, l2, l3, l4⟩ := hN.isGate_lt g
      have hk : N.kids n = some (a, b) := by
        obtain ⟨_, _, nd, h1, _, rfl, rfl⟩ := g
        simp [Aig.kids, h1]
      have ha : a.index < sim.length := by omega
      have hb : b.index < sim.length := by omega
      have ea := List.getElem?_eq_getElem ha
      have eb := List.getElem?_eq_getElem hb
      have la := h _ (List.getElem_mem ha)
      have lb := h _ (List.getElem_mem hb)
      generalize sim[a.index] = x at ea la
      generalize sim[b.index] = y at eb lb
      rw [simGates, hk]; dsimp only
      rw [ea, eb]; dsimp only
      rw [if_pos (by omega)]
      rw [List.pairwise_cons] at hs
      obtain ⟨sim', e, h1, h2, h3, h4⟩ := simGates_spec hN (nwords := nwords) l (sim.set n (List.zipWith (gateWord a.compl b.compl) x y)) hs.2
        (fun m hm => hg m (List.mem_cons_of_mem _ hm)) (by rw [List.length_set, hlen]) (fun ws hws => by
          rcases List.mem_or_eq_of_mem_set hws with hws | rfl
          · exact h ws hws
          · rw [List.length_zipWith, la, lb]; simp)
      have hlow : ∀ x : Nat, x ≤ n → x ∉ l := fun x hx hm => by have := hs.1 x hm; omega
      refine ⟨sim', e, by rw [h1, List.length_set], h2, fun x hx => ?_, ?_⟩
      · rw [List.mem_cons, not_or] at hx
        rw [h3 x hx.2, List.getElem?_set, if_neg (fun h => hx.1 h.symm)]
      · intro m hm a' b' g'
        rcases List.mem_cons.1 hm with rfl | hm
        · obtain ⟨rfl, rfl⟩ := g.same g'
          refine ⟨x, y, ?_, ?_, ?_⟩
          · rw [h3 _ (hlow _ (by omega)), List.getElem?_set, if_neg (by omega), ea]
          · rw [h3 _ (hlow _ (by omega)), List.getElem?_set, if_neg (by omega), eb]
          · rw [h3 _ (hlow _ (Nat.le_refl _)), List.getElem?_set_self (by omega)]
        · exact h4 m hm a' b' g'

/-- every node has its words, those of the inputs come from the random numbers, those of a gate from its fanins -/
structure SimOk (N : Aig) (nwords : Nat) (rand : Nat → Nat) (c : Nat) (sim : Sims) : Prop where
  len : sim.length = N.nodes.length
  words : ∀ ws ∈ sim, ws.length = nwords
  zero : sim[0]? = some (List.replicate nwords 0)
  input : ∀ k n : Nat, N.inputs[k]? = some n → sim[n]? = inputWords nwords rand (c + k * nwords)
  gate : ∀ n a b, N.IsGate n a b → ∃ x y, sim[a.index]? = some x ∧ sim[b.index]? = some y ∧
    sim[n]? = some (List.zipWith (gateWord a.compl b.compl) x y)

theorem randomSim_spec {N : Aig} (hN : WF N) {nwords : Nat} (hw : 0 < nwords) (rand : Nat → Nat) (c : Nat) :
    ∃ sim, randomSim N nwords rand c = some (sim, c + N.inputs.length * nwords) ∧ SimOk N nwords rand c sim := by
  obtain ⟨s1, e1, h1, h2, h3, h3'⟩ := simInputs_spec hw (rand := rand) N.inputs (List.replicate N.nodes.length (List.replicate nwords 0)) c
    hN.inputsNodup (fun i hi => by rw [List.length_replicate]; exact (hN.inputs_lt hi).2) (fun ws hws => by
      rw [List.eq_of_mem_replicate hws, List.length_replicate])
  rw [List.length_replicate] at h1
  obtain ⟨s2, e2, h4, h5, h6, h7⟩ := simGates_spec hN (nwords := nwords) N.gates s1 (by
      unfold Aig.gates
      exact List.Pairwise.filter _ List.pairwise_lt_range) (fun n hn => (hN.mem_gates n).1 hn) h1 h2
  refine ⟨s2, ?_, by rw [h4, h1], h5, ?_, ?_, fun n a b g => h7 n ((hN.mem_gates n).2 ⟨a, b, g⟩) a b g⟩
  · rw [randomSim, e1]; dsimp only; rw [e2]; rfl
  · have hg : (0 : Nat) ∉ N.gates := by
      rw [hN.mem_gates]; rintro ⟨a, b, g⟩; exact g.1 rfl
    have hi : (0 : Nat) ∉ N.inputs := fun h => by have := (hN.inputs_lt h).1; omega
    rw [h6 0 hg, h3 0 hi, List.getElem?_replicate, if_pos hN.pos]
  · intro k n hk
    have hg : n ∉ N.gates := by
      rw [hN.mem_gates]; rintro ⟨a, b, g⟩; exact g.2.1 (List.mem_of_getElem? hk)
    rw [h6 n hg]; exact h3' k n hk

/-- the valuation in bit `j` of word `i` -/
def bitVal (sim : Sims) (i j : Nat) (n : Nat) : Bool :=
  match sim[n]? with
  | none => false
  | some ws =>
    match ws[i]? with
    | none => false
    | some w => w.getLsbD j

theorem SimOk.models {N : Aig} {nwords : Nat} {rand : Nat → Nat} {c : Nat} {sim : Sims} (h : SimOk N nwords rand c sim) {i j : Nat} (hi : i < nwords) (hj : j < 64) :
    N.Models (bitVal sim i j) := by
  refine ⟨?_, ?_⟩
  · simp [bitVal, h.zero, hi]
  · intro n a b g
    obtain ⟨x, y, e1, e2, e3⟩ := h.gate n a b g
    have lx := h.words x (List.mem_of_getElem? e1)
    have ly := h.words y (List.mem_of_getElem? e2)
    have hx : x[i]? = some (x[i]'(by omega)) := List.getElem?_eq_getElem (by omega)
    have hy : y[i]? = some (y[i]'(by omega)) := List.getElem?_eq_getElem (by omega)
    generalize x[i]'(by omega) = p at hx
    generalize y[i]'(by omega) = q at hy
    simp only [bitVal, Sig.val, e1, e2, e3, List.getElem?_zipWith, hx, hy]
    cases a.compl <;> cases b.compl <;> simp [gateWord, hj]

theorem SimOk.norm {N : Aig} {nwords : Nat} {rand : Nat → Nat} {c : Nat} {sim : Sims} (h : SimOk N nwords rand c sim) {a b : Nat}
    {x y : List (BitVec 64)} (hx : sim[a]? = some x) (hy : sim[b]? = some y) :
    normWords N a x = normWords N b y ↔ ∀ i, i < nwords → ∀ j, j < 64 →
      Bool.xor (bitVal sim i j a) (N.phaseOf a) = Bool.xor (bitVal sim i j b) (N.phaseOf b) := by
  have lx := h.words x (List.mem_of_getElem? hx)
  have ly := h.words y (List.mem_of_getElem? hy)
  have hb : ∀ i (h1 : i < x.length) (h2 : i < y.length) j, bitVal sim i j a = x[i].getLsbD j ∧ bitVal sim i j b = y[i].getLsbD j := by
    intro i h1 h2 j
    simp [bitVal, hx, hy, List.getElem?_eq_getElem h1, List.getElem?_eq_getElem h2]
  constructor
  · intro e i hi j hj
    have hix : i < x.length := by omega
    have hiy : i < y.length := by omega
    rw [(hb i hix hiy j).1, (hb i hix hiy j).2]
    have e' := congrArg (fun l => (l[i]?).map fun w => w.getLsbD j) e
    unfold normWords at e'
    revert e'
    cases N.phaseOf a <;> cases N.phaseOf b <;> simp [List.getElem?_eq_getElem hix, List.getElem?_eq_getElem hiy, hj]
  · intro hab
    have key : ∀ i (h1 : i < x.length) (h2 : i < y.length) j, j < 64 →
        Bool.xor (x[i].getLsbD j) (N.phaseOf a) = Bool.xor (y[i].getLsbD j) (N.phaseOf b) := by
      intro i h1 h2 j hj
      have := hab i (by omega) j hj
      rwa [(hb i h1 h2 j).1, (hb i h1 h2 j).2] at this
    unfold normWords
    cases ha : N.phaseOf a <;> cases hb : N.phaseOf b <;> simp only [Bool.false_eq_true, if_false, if_true] <;>
      refine List.ext_getElem (by simp [lx, ly]) fun i h1 h2 => BitVec.eq_of_getLsbD_eq fun j hj => ?_ <;>
      have := key i (by simpa using h1) (by simpa using h2) j hj <;> simp [ha, hb, hj] at this ⊢ <;> simp [this]

/-- Specification: bit `j` of word `i` of input number `k`, when the random numbers from `c` on are used. The first word is shifted by one. -/
def pattern (rand : Nat → Nat) (nwords c k i j : Nat) : Bool :=
  if i = 0 then decide (0 < j) && (rand (c + k * nwords)).testBit (j - 1) else (rand (c + k * nwords + i)).testBit j

theorem inputWords_bit {nwords : Nat} {rand : Nat → Nat} {c i j : Nat} (hi : i < nwords) (hj : j < 64) {ws : List (BitVec 64)}
    (h : inputWords nwords rand c = some ws) (k : Nat) (d : Nat) (hc : c = d + k * nwords) :
    (ws[i]?).map (fun w => w.getLsbD j) = some (pattern rand nwords d k i j) := by
  rw [inputWords] at h
  cases e : (List.range nwords).map fun i => BitVec.ofNat 64 (rand (c + i)) with
  | nil => rw [e] at h; cases h
  | cons w t =>
      rw [e] at h
      obtain rfl := Option.some.inj h
      have hget : ∀ q, (w :: t)[q]? = if q < nwords then some (BitVec.ofNat 64 (rand (c + q))) else none := by
        intro q
        rw [← e, List.getElem?_map]
        by_cases hq : q < nwords
        · rw [List.getElem?_range hq, if_pos hq]; rfl
        · rw [List.getElem?_eq_none (by simpa using hq), if_neg hq]; rfl
      cases i with
      | zero =>
          have h0 := hget 0
          rw [if_pos hi] at h0
          obtain rfl : w = BitVec.ofNat 64 (rand (c + 0)) := by simpa using h0
          simp only [List.getElem?_cons_zero, Option.map_some, pattern, if_pos, BitVec.getLsbD_shiftLeft, BitVec.getLsbD_ofNat, ← hc,
            Nat.add_zero, hj]
          by_cases h1 : j < 1
          · simp [show j = 0 by omega]
          · simp [h1, show j - 1 < 64 by omega, show 0 < j by omega]
      | succ i =>
          have h1 := hget (i + 1)
          rw [if_pos hi, List.getElem?_cons_succ] at h1
          rw [List.getElem?_cons_succ, h1]
          simp only [Option.map_some, pattern, ← hc, BitVec.getLsbD_ofNat, hj]
          simp

/-- Specification: the two nodes agree up to the phases on all patterns of one simulation. -/
def SamePatterns (N : Aig) (nwords : Nat) (rand : Nat → Nat) (c a b : Nat) : Prop :=
  ∀ i, i < nwords → ∀ j, j < 64 → ∀ v, N.Models v → (∀ k n : Nat, N.inputs[k]? = some n → v n = pattern rand nwords c k i j) →
    Bool.xor (v a) (N.phaseOf a) = Bool.xor (v b) (N.phaseOf b)

theorem SimOk.input_val {N : Aig} {nwords : Nat} {rand : Nat → Nat} {c : Nat} {sim : Sims} (h : SimOk N nwords rand c sim) {i j : Nat}
    (hi : i < nwords) (hj : j < 64) {k n : Nat} (hk : N.inputs[k]? = some n) : bitVal sim i j n = pattern rand nwords c k i j := by
  obtain ⟨ws, e, hl⟩ := inputWords_spec (Nat.lt_of_le_of_lt (Nat.zero_le i) hi) rand (c + k * nwords)
  have h1 := inputWords_bit hi hj e k c rfl
  have h2 := h.input k n hk
  rw [e] at h2
  simp only [bitVal, h2]
  cases h3 : ws[i]? with
  | none => rw [h3] at h1; cases h1
  | some w => rw [h3] at h1; simpa using h1

theorem SimOk.same {N : Aig} (hN : WF N) {nwords : Nat} {rand : Nat → Nat} {c : Nat} {sim : Sims} (h : SimOk N nwords rand c sim) {a b : Nat}
    (ha : a < N.nodes.length) (hb : b < N.nodes.length) :
    SamePatterns N nwords rand c a b ↔ ∀ i, i < nwords → ∀ j, j < 64 →
      Bool.xor (bitVal sim i j a) (N.phaseOf a) = Bool.xor (bitVal sim i j b) (N.phaseOf b) := by
  constructor
  · intro hs i hi j hj
    exact hs i hi j hj _ (h.models hi hj) fun k n hk => h.input_val hi hj hk
  · intro hs i hi j hj v hv hin
    have : ∀ n, n < N.nodes.length → v n = bitVal sim i j n :=
      hN.unique (x := fun k => pattern rand nwords c k i j) ⟨hv, fun k n hk => hin k n hk⟩
        ⟨h.models hi hj, fun k n hk => h.input_val hi hj hk⟩
    rw [this a ha, this b hb]
    exact hs i hi j hj

theorem equalSim_norm {N : Aig} {sim : Sims} {a b : Nat} {x y : List (BitVec 64)}
    (hx : sim[a]? = some x) (hy : sim[b]? = some y) : equalSim N sim a b = decide (normWords N a x = normWords N b y) := by
  have hinv : ∀ l : List (BitVec 64), (l.map (~~~·)).map (~~~·) = l := fun l => by simp [Function.comp_def]
  have hinj : ∀ l m : List (BitVec 64), l.map (~~~·) = m.map (~~~·) ↔ l = m := fun l m =>
    ⟨fun e => by rw [← hinv l, e, hinv], fun e => by rw [e]⟩
  rw [equalSim, hx, hy]; dsimp only
  unfold normWords
  cases N.phaseOf a <;> cases N.phaseOf b <;> simp [beq_eq_decide, hinj]
  constructor
  · intro e; rw [e, hinv]
  · intro e; rw [← e, hinv]

theorem equalSim_iff {N : Aig} (hN : WF N) {nwords : Nat} {rand : Nat → Nat} {c : Nat} {sim : Sims} (h : SimOk N nwords rand c sim)
    {a b : Nat} (ha : a < N.nodes.length) (hb : b < N.nodes.length) :
    equalSim N sim a b = true ↔ SamePatterns N nwords rand c a b := by
  have hl := h.len
  have ea := List.getElem?_eq_getElem (show a < sim.length by omega)
  have eb := List.getElem?_eq_getElem (show b < sim.length by omega)
  rw [equalSim_norm ea eb, decide_eq_true_iff, h.norm ea eb, h.same hN ha hb]

theorem SamePatterns.symm {N : Aig} {nwords : Nat} {rand : Nat → Nat} {c a b : Nat} (h : SamePatterns N nwords rand c a b) :
    SamePatterns N nwords rand c b a := fun i hi j hj v hv hx => (h i hi j hj v hv hx).symm

theorem SamePatterns.trans {N : Aig} {nwords : Nat} {rand : Nat → Nat} {c a b d : Nat} (h : SamePatterns N nwords rand c a b)
    (h' : SamePatterns N nwords rand c b d) : SamePatterns N nwords rand c a d :=
  fun i hi j hj v hv hx => (h i hi j hj v hv hx).trans (h' i hi j hj v hv hx)

theorem equalSim_refl {N : Aig} (hN : WF N) {nwords : Nat} {rand : Nat → Nat} {c : Nat} {sim : Sims} (h : SimOk N nwords rand c sim)
    {n : Nat} (hn : n < N.nodes.length) : equalSim N sim n n = true :=
  (equalSim_iff hN h hn hn).2 fun _ _ _ _ _ _ _ => rfl

theorem equalSim_same {N : Aig} (hN : WF N) {nwords : Nat} {rand : Nat → Nat} {c : Nat} {sim : Sims} (h : SimOk N nwords rand c sim)
    {a b : Nat} (ha : a < N.nodes.length) (hb : b < N.nodes.length) (hab : SamePatterns N nwords rand c a b) (s : Nat) :
    equalSim N sim s a = equalSim N sim s b := by
  by_cases hs : s < N.nodes.length
  · rw [Bool.eq_iff_iff, equalSim_iff hN h hs ha, equalSim_iff hN h hs hb]
    exact ⟨fun h => h.trans hab, fun h => h.trans hab.symm⟩
  · simp [equalSim, List.getElem?_eq_none (show sim.length ≤ s by rw [h.len]; omega)]

/-! ### the hash table -/

/-- bucket of a node with the given words -/
def bucket (N : Aig) (size n : Nat) (ws : List (BitVec 64)) : Nat := (hashWords 0 (normWords N n ws) 0).toNat % size

/-- invariant of the loop of `prepare`, before node `k` -/
structure PrepInv (N : Aig) (sim : Sims) (size k : Nat) (T : List (Option Nat)) (K : Classes) : Prop where
  tlen : T.length = size
  len : K.id2class.length = N.nodes.length
  lenr : K.reprs.length = N.nodes.length
  sorted : ∀ (r : Nat) (l : List Nat), K.id2class[r]? = some l → l.Pairwise (· < ·)
  mem : ∀ (r : Nat) (l : List Nat), K.id2class[r]? = some l → ∀ c : Nat, c ∈ l ↔ c < k ∧ K.reprs[c]? = some r
  head : ∀ (r : Nat) (l : List Nat), K.id2class[r]? = some l → l ≠ [] → l.head? = some r
  bound : ∀ c r : Nat, K.reprs[c]? = some r → r < N.nodes.length
  fresh : ∀ c : Nat, k ≤ c → c < N.nodes.length → K.reprs[c]? = some c
  table : ∀ h r : Nat, T[h]? = some (some r) → r < k ∧ K.reprs[r]? = some r
  done : ∀ c : Nat, c < k → ∃ ws r, sim[c]? = some ws ∧ K.reprs[c]? = some r ∧ T[bucket N size c ws]? = some (some r)

theorem prepareNode_spec {N : Aig} {nwords : Nat} {rand : Nat → Nat} {c0 : Nat} {sim : Sims} (hS : SimOk N nwords rand c0 sim) {size k : Nat} (hsize : 0 < size)
    {T : List (Option Nat)} {K : Classes} (h : PrepInv N sim size k T K) (hk : k < N.nodes.length) :
    ∃ T' K', prepareNode N sim size (T, K) k = some (T', K') ∧ PrepInv N sim size (k + 1) T' K' := by
  have hks : k < sim.length := by rw [hS.len]; exact hk
  have ek := List.getElem?_eq_getElem hks
  generalize sim[k] = ws at ek
  rw [prepareNode, ek]; dsimp only
  have hb : bucket N size k ws < T.length := by rw [h.tlen]; exact Nat.mod_lt _ hsize
  have hbT := List.getElem?_eq_getElem hb
  rw [show (hashWords 0 (normWords N k ws) 0).toNat % size = bucket N size k ws from rfl]
  rw [hbT]
  have hfk := h.fresh k (Nat.le_refl _) hk
  cases hT : T[bucket N size k ws] with
  | none =>
      rw [hT] at hbT
      dsimp only
      refine ⟨_, _, rfl, ?_⟩
      have hcls : ∀ q : Nat, (K.id2class.modify k (· ++ [k]))[q]? = if k = q then some [k] else K.id2class[q]? := by
        intro q
        rw [List.getElem?_modify]
        by_cases hq : k = q
        · subst hq
          obtain ⟨l, hl⟩ : ∃ l, K.id2class[k]? = some l := ⟨_, List.getElem?_eq_getElem (by rw [h.len]; exact hk)⟩
          have hnil : l = [] := by
            by_contra hne
            have h1 := h.head k l hl hne
            have h2 := (h.mem k l hl k).1 (List.mem_of_mem_head? h1)
            omega
          rw [hl, if_pos rfl, hnil]; simp
        · rw [if_neg hq]; cases K.id2class[q]? <;> simp [hq]
      have hnone : ∀ c, c < k → K.reprs[c]? ≠ some k := by
        intro c hc he
        obtain ⟨l, hl⟩ : ∃ l, K.id2class[k]? = some l := ⟨_, List.getElem?_eq_getElem (by rw [h.len]; exact hk)⟩
        have h1 := (h.mem k l hl c).2 ⟨hc, he⟩
        have h2 := h.head k l hl (List.ne_nil_of_mem h1)
        have h3 := (h.mem k l hl k).1 (List.mem_of_mem_head? h2)
        omega
      refine ⟨by rw [List.length_set, h.tlen], by rw [List.length_modify, h.len], h.lenr, ?_, ?_, ?_, h.bound, ?_, ?_, ?_⟩
      · intro r l hl
        simp only at hl
        rw [hcls] at hl
        split at hl
        · obtain rfl := Option.some.inj hl; simp
        · exact h.sorted r l hl
      · intro r l hl c
        simp only at hl ⊢
        rw [hcls] at hl
        split at hl
        · next hr =>
          subst hr
          obtain rfl := Option.some.inj hl
          rw [List.mem_singleton]
          constructor
          · rintro rfl; exact ⟨by omega, hfk⟩
          · rintro ⟨h1, h2⟩
            by_contra hc
            exact hnone c (by omega) h2
        · next hr =>
          rw [h.mem r l hl c]
          constructor
          · rintro ⟨h1, h2⟩; exact ⟨by omega, h2⟩
          · rintro ⟨h1, h2⟩
            refine ⟨lt_of_le_of_ne (by omega) ?_, h2⟩
            rintro rfl
            rw [hfk] at h2
            exact hr (Option.some.inj h2)
      · intro r l hl hne
        simp only at hl
        rw [hcls] at hl
        split at hl
        · next hr => subst hr; obtain rfl := Option.some.inj hl; rfl
        · exact h.head r l hl hne
      · intro c h1 h2; exact h.fresh c (by omega) h2
      · intro b r hbr
        rw [List.getElem?_set] at hbr
        split at hbr
        · obtain rfl : k = r := by simpa using hbr
          exact ⟨by omega, hfk⟩
        · obtain ⟨h1, h2⟩ := h.table b r hbr
          exact ⟨by omega, h2⟩
      · intro c hc
        by_cases hck : c = k
        · subst hck
          exact ⟨ws, c, ek, hfk, List.getElem?_set_self hb⟩
        · obtain ⟨ws', r, h1, h2, h3⟩ := h.done c (by omega)
          refine ⟨ws', r, h1, h2, ?_⟩
          rw [List.getElem?_set, if_neg, h3]
          intro he
          rw [← he, hbT] at h3
          cases h3
  | some r =>
      rw [hT] at hbT
      dsimp only
      obtain ⟨hrk, hrr⟩ := h.table _ r hbT
      refine ⟨_, _, rfl, ?_⟩
      obtain ⟨lr, hlr⟩ : ∃ l, K.id2class[r]? = some l := ⟨_, List.getElem?_eq_getElem (by rw [h.len]; omega)⟩
      have hrl : r ∈ lr := (h.mem r lr hlr r).2 ⟨hrk, hrr⟩
      have hcls : ∀ q : Nat, (K.id2class.modify r (· ++ [k]))[q]? = if r = q then some (lr ++ [k]) else K.id2class[q]? := by
        intro q
        rw [List.getElem?_modify]
        by_cases hq : r = q
        · subst hq; rw [hlr, if_pos rfl]; simp
        · rw [if_neg hq]; cases K.id2class[q]? <;> simp [hq]
      have hset : ∀ c : Nat, (K.reprs.set k r)[c]? = if k = c then some r else K.reprs[c]? := by
        intro c
        by_cases hc : k = c
        · subst hc; rw [List.getElem?_set_self (by rw [h.lenr]; exact hk), if_pos rfl]
        · rw [List.getElem?_set, if_neg hc, if_neg hc]
      refine ⟨h.tlen, by rw [List.length_modify, h.len], by rw [List.length_set, h.lenr], ?_, ?_, ?_, ?_, ?_, ?_, ?_⟩
      · intro q l hl
        simp only at hl
        rw [hcls] at hl
        split at hl
        · obtain rfl := Option.some.inj hl
          rw [List.pairwise_append]
          refine ⟨h.sorted r lr hlr, by simp, fun a ha b hb => ?_⟩
          have := ((h.mem r lr hlr a).1 ha).1
          rw [List.mem_singleton] at hb
          omega
        · exact h.sorted q l hl
      · intro q l hl c
        simp only at hl ⊢
        rw [hcls] at hl
        rw [hset]
        split at hl
        · next hq =>
          subst hq
          obtain rfl := Option.some.inj hl
          rw [List.mem_append, List.mem_singleton, h.mem r lr hlr c]
          by_cases hc : k = c
          · subst hc; simp
          · rw [if_neg hc]
            constructor
            · rintro (⟨h1, h2⟩ | h1)
              · exact ⟨by omega, h2⟩
              · omega
            · rintro ⟨h1, h2⟩; exact Or.inl ⟨by omega, h2⟩
        · next hq =>
          rw [h.mem q l hl c]
          by_cases hc : k = c
          · subst hc; simp [hq]
          · rw [if_neg hc]
            constructor
            · rintro ⟨h1, h2⟩; exact ⟨by omega, h2⟩
            · rintro ⟨h1, h2⟩; exact ⟨by omega, h2⟩
      · intro q l hl hne
        simp only at hl
        rw [hcls] at hl
        split at hl
        · next hq =>
          subst hq
          obtain rfl := Option.some.inj hl
          have := h.head r lr hlr (List.ne_nil_of_mem hrl)
          cases lr with
          | nil => simp at hrl
          | cons x lr => simpa using this
        · exact h.head q l hl hne
      · intro c q hc
        simp only at hc
        rw [hset] at hc
        split at hc
        · obtain rfl := Option.some.inj hc; omega
        · exact h.bound c q hc
      · intro c h1 h2
        simp only
        rw [hset, if_neg (by omega)]
        exact h.fresh c (by omega) h2
      · intro b q hbq
        obtain ⟨h1, h2⟩ := h.table b q hbq
        refine ⟨by omega, ?_⟩
        simp only
        rw [hset, if_neg (by omega), h2]
      · intro c hc
        simp only
        by_cases hck : c = k
        · subst hck
          exact ⟨ws, r, ek, by rw [hset, if_pos rfl], hbT⟩
        · obtain ⟨ws', q, h1, h2, h3⟩ := h.done c (by omega)
          exact ⟨ws', q, h1, by rw [hset, if_neg (by omega), h2], h3⟩

theorem prepareLoop_spec {N : Aig} {nwords : Nat} {rand : Nat → Nat} {c0 : Nat} {sim : Sims} (hS : SimOk N nwords rand c0 sim) {size : Nat} (hsize : 0 < size) :
    ∀ (j k : Nat) (T : List (Option Nat)) (K : Classes), k + j = N.nodes.length → PrepInv N sim size k T K →
    ∃ T' K', prepareLoop N sim size (List.range' k j) (T, K) = some (T', K') ∧ PrepInv N sim size (k + j) T' K'
  | 0, k, T, K, _, h => ⟨T, K, rfl, h⟩
  | j + 1, k, T, K, hk, h => by
      obtain ⟨T', K', e, h'⟩ := prepareNode_spec hS hsize h (by omega)
      obtain ⟨T'', K'', e2, h''⟩ := prepareLoop_spec hS hsize j (k + 1) T' K' (by omega) h'
      refine ⟨T'', K'', ?_, by rw [show k + (j + 1) = k + 1 + j by omega]; exact h''⟩
      rw [List.range'_succ, prepareLoop, e]; exact e2

theorem liveNodes_eq {N : Aig} (hN : WF N) : liveNodes N = List.range' 0 N.nodes.length := by
  rw [liveNodes, List.filter_eq_self.2, List.range_eq_range']
  intro n hn
  rw [List.mem_range] at hn
  have e := List.getElem?_eq_getElem hn
  generalize N.nodes[n] = nd at e
  simp only [Aig.isDead, e, Bool.not_eq_true']
  by_cases h0 : n = 0
  · subst h0; exact (hN.node0 nd e).2
  · by_cases hi : n ∈ N.inputs
    · obtain ⟨k, hk⟩ := List.mem_iff_getElem?.1 hi
      obtain ⟨_, nd', h1, _, _, h2⟩ := hN.input k n hk
      rw [e] at h1; obtain rfl := Option.some.inj h1; exact h2
    · exact (hN.gate n nd e h0 hi).2.2.2

/-- the classes are exactly those of the agreement on the simulations that start at the given random numbers -/
def Exact (N : Aig) (nwords : Nat) (rand : Nat → Nat) (cs : List Nat) (K : Classes) : Prop := ∀ a b, a < N.nodes.length → b < N.nodes.length →
  (K.reprs[a]? = K.reprs[b]? ↔ ∀ c ∈ cs, SamePatterns N nwords rand c a b)

theorem refines_iff {N : Aig} (hN : WF N) {nwords : Nat} {rand : Nat → Nat} {c0 : Nat} {sim : Sims} (hS : SimOk N nwords rand c0 sim)
    {K K' : Classes} (hK' : K'.Ok N.nodes.length) (hr : Refines (equalSim N sim) K K')
    (hh : ∀ q c : Nat, K'.reprs[c]? = some q → equalSim N sim q c = true) {a b : Nat} (ha : a < N.nodes.length) (hb : b < N.nodes.length) :
    K'.reprs[a]? = K'.reprs[b]? ↔ K.reprs[a]? = K.reprs[b]? ∧ SamePatterns N nwords rand c0 a b := by
  constructor
  · intro e
    refine ⟨hr.finer a b e, ?_⟩
    have ea : K'.reprs[a]? = some (K'.reprs[a]'(by rw [hK'.lenr]; exact ha)) := List.getElem?_eq_getElem _
    generalize K'.reprs[a]'(by rw [hK'.lenr]; exact ha) = r at ea
    have hrl := hK'.bound a r ea
    exact ((equalSim_iff hN hS hrl ha).1 (hh r a ea)).symm.trans ((equalSim_iff hN hS hrl hb).1 (hh r b (e.symm.trans ea)))
  · rintro ⟨e, hs⟩
    exact hr.kept a b (fun s => equalSim_same hN hS ha hb hs s) e

theorem prepare_spec {N : Aig} (hN : WF N) {nwords : Nat} {rand : Nat → Nat} {c0 : Nat} {sim : Sims} (hS : SimOk N nwords rand c0 sim) :
    ∃ K, prepare N sim (Classes.init N.nodes.length) = some K ∧ K.Ok N.nodes.length ∧ Exact N nwords rand [c0] K := by
  obtain ⟨size, e1, _, hsize⟩ := primeFrom_spec (N.nodes.length / 4)
  have h0 : PrepInv N sim size 0 (List.replicate size none) (Classes.init N.nodes.length) := by
    have hnil : ∀ (r : Nat) (l : List Nat), (Classes.init N.nodes.length).id2class[r]? = some l → l = [] := by
      intro r l hl
      simp only [Classes.init, List.getElem?_replicate] at hl
      split at hl
      · simpa using hl.symm
      · cases hl
    have hr : ∀ c r : Nat, (Classes.init N.nodes.length).reprs[c]? = some r → r = c ∧ c < N.nodes.length := by
      intro c r hc
      simp only [Classes.init] at hc
      have hlt := (List.getElem?_eq_some_iff.1 hc).1
      rw [List.length_range] at hlt
      rw [List.getElem?_range hlt] at hc
      exact ⟨(Option.some.inj hc).symm, hlt⟩
    refine ⟨by simp, by simp [Classes.init], by simp [Classes.init], ?_, ?_, ?_, ?_, ?_, ?_, by omega⟩
    · intro r l hl; rw [hnil r l hl]; simp
    · intro r l hl c; rw [hnil r l hl]; simp
    · intro r l hl hne; exact absurd (hnil r l hl) hne
    · intro c r hc; have := hr c r hc; omega
    · intro c _ hc; simp [Classes.init, List.getElem?_range hc]
    · intro b r hb
      rw [List.getElem?_replicate] at hb
      split at hb <;> simp at hb
  obtain ⟨T, K, e2, h⟩ := prepareLoop_spec hS hsize N.nodes.length 0 _ _ (by omega) h0
  rw [Nat.zero_add] at h
  have hlt : ∀ {c r : Nat}, K.reprs[c]? = some r → c < N.nodes.length := fun {c r} hc => by
    have := (List.getElem?_eq_some_iff.1 hc).1
    rwa [h.lenr] at this
  have hok : K.Ok N.nodes.length := ⟨h.len, h.lenr, h.sorted, fun r l hl c => by
    rw [h.mem r l hl c]
    exact ⟨And.right, fun hc => ⟨hlt hc, hc⟩⟩, h.head, h.bound⟩
  obtain ⟨c, K', e3, h1, h2, h3⟩ := refineClasses_spec (recursively := false) (fun n hn => equalSim_refl hN hS hn) hok
  refine ⟨K', ?_, h1, fun a b ha hb => ?_⟩
  · rw [prepare, e1]; dsimp only
    rw [liveNodes_eq hN, e2]; dsimp only
    rw [e3]; rfl
  · rw [refines_iff hN hS h1 h2 h3 ha hb, List.forall_mem_singleton]
    refine ⟨And.right, fun hab => ⟨?_, hab⟩⟩
    obtain ⟨wa, ra, h1, h2, h3⟩ := h.done a ha
    obtain ⟨wb, rb, h4, h5, h6⟩ := h.done b hb
    have : bucket N size a wa = bucket N size b wb := by
      rw [bucket, bucket, (hS.norm h1 h4).2 ((hS.same hN ha hb).1 hab)]
    rw [this, h6] at h3
    rw [h2, h5]
    simpa using h3.symm

/-- where the random numbers of the simulations start, from the given one on -/
def starts (M : Nat) : Nat → Nat → List Nat
  | 0, _ => []
  | k + 1, c => c :: starts M k (c + M)

theorem refineRounds_spec {N : Aig} (hN : WF N) {nwords : Nat} (hw : 0 < nwords) (rand : Nat → Nat) :
    ∀ (k : Nat) (K : Classes) (c : Nat) (cs : List Nat), K.Ok N.nodes.length → Exact N nwords rand cs K →
    ∃ K' c', refineRounds N nwords rand k (K, c) = some (K', c') ∧ K'.Ok N.nodes.length ∧
      Exact N nwords rand (cs ++ starts (N.inputs.length * nwords) k c) K'
  | 0, K, c, cs, h1, h2 => ⟨K, c, rfl, h1, by simpa [starts] using h2⟩
  | k + 1, K, c, cs, h1, h2 => by
      obtain ⟨sim, e, hS⟩ := randomSim_spec hN hw rand c
      obtain ⟨d, K', e2, h4, h5, h6⟩ := refineClasses_spec (recursively := true) (fun n hn => equalSim_refl hN hS hn) h1
      obtain ⟨K'', c'', e3, h7, h8⟩ := refineRounds_spec hN hw rand k K' (c + N.inputs.length * nwords) (cs ++ [c]) h4 (by
        intro a b ha hb
        rw [refines_iff hN hS h4 h5 h6 ha hb, h2 a b ha hb]
        simp only [List.mem_append, List.mem_singleton]
        exact ⟨fun h d hd => hd.elim (h.1 d) (fun e => e ▸ h.2), fun h => ⟨fun d hd => h d (.inl hd), h c (.inr rfl)⟩⟩)
      refine ⟨K'', c'', ?_, h7, by simpa [starts] using h8⟩
      rw [refineRounds, e]; dsimp only
      rw [e2]; exact e3

theorem computeClasses_spec {N : Aig} (hN : WF N) {nwords : Nat} (hw : 0 < nwords) (rand : Nat → Nat) :
    ∃ K c, computeClasses N nwords rand = some (K, c) ∧ K.Ok N.nodes.length ∧
      Exact N nwords rand (starts (N.inputs.length * nwords) 8 0) K := by
  obtain ⟨sim, e, hS⟩ := randomSim_spec hN hw rand 0
  obtain ⟨K, e2, h1, h2⟩ := prepare_spec hN hS
  obtain ⟨K', c', e3, h4, h5⟩ := refineRounds_spec hN hw rand 7 K (0 + N.inputs.length * nwords) [0] h1 h2
  refine ⟨K', c', ?_, h4, h5⟩
  rw [computeClasses, e]; dsimp only
  rw [e2]; exact e3

end Verif.Choice
