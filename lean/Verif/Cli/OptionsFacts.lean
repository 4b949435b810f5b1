import Verif.Cli.OptionsSpec
import Mathlib.Data.List.Induction

set_option autoImplicit false

/-! # Lemmas about command lines -/

namespace Verif.Cli.Opts

theorem findIdx_named {os : List Opt} (hw : WellNamed os) {k : Nat} {o : Opt} (ho : os[k]? = some o) (b : Bool) {name : Tok}
    (hn : o.named b name = true) : os.findIdx? (·.named b name) = some k := by
  obtain ⟨hk, rfl⟩ := List.getElem?_eq_some_iff.1 ho
  rw [List.findIdx?_eq_some_iff_getElem]
  refine ⟨hk, hn, fun j hj => ?_⟩
  have := (List.pairwise_iff_getElem.1 hw.2) j k (by omega) hk hj
  unfold Opt.named at hn ⊢
  split at hn <;> rename_i hb <;> simp only [hb] at *
  · simp only [↓reduceIte, decide_eq_true_eq] at hn
    subst hn
    simpa using fun h => this.2 h.symm
  · simp only [Bool.false_eq_true, ↓reduceIte, decide_eq_true_eq] at hn
    subst hn
    simpa using fun h => this.1 h.symm

theorem takeWhile_long {l t : Tok} (h : ∀ c ∈ l, c ≠ '=') : (l ++ '=' :: t).takeWhile (· ≠ '=') = l ∧ (l ++ '=' :: t).dropWhile (· ≠ '=') = '=' :: t := by
  induction l with
  | nil => simp
  | cons a l ih =>
    have ha := h a (by simp)
    have := ih fun c hc => h c (by simp [hc])
    simp_all

theorem takeWhile_bare {l : Tok} (h : ∀ c ∈ l, c ≠ '=') : l.takeWhile (· ≠ '=') = l ∧ l.dropWhile (· ≠ '=') = [] := by
  induction l with
  | nil => simp
  | cons a l ih =>
    have ha := h a (by simp)
    have := ih fun c hc => h c (by simp [hc])
    simp_all

theorem digits_eq {t : Tok} (h : ∀ c ∈ t, c.isDigit = true) (n : Nat) : digits t n = t.foldl (fun a c => 10 * a + (c.toNat - 48)) n := by
  induction t generalizing n with
  | nil => rfl
  | cons c t ih =>
    simp only [digits, digit, h c (by simp), ↓reduceIte, List.foldl_cons]
    exact ih (fun c hc => h c (by simp [hc])) _

theorem isDigit_plain {c : Char} (h : c.isDigit = true) : isSpace c = false ∧ c ≠ '-' ∧ c ≠ '+' := by
  simp only [Char.isDigit, Bool.and_eq_true, decide_eq_true_eq] at h
  have h1 : 48 ≤ c.toNat := h.1
  refine ⟨?_, ?_, ?_⟩
  · simp only [isSpace, Bool.or_eq_false_iff, Bool.and_eq_false_iff, decide_eq_false_iff_not]
    refine ⟨?_, Or.inr (by omega)⟩
    rintro rfl
    exact absurd h1 (by decide)
  · rintro rfl; exact absurd h1 (by decide)
  · rintro rfl; exact absurd h1 (by decide)

theorem stoll_numeral {t : Tok} {n : Nat} (h : Numeral t n) (hn : n < 2 ^ 63) : stoll t = some (n : Int) := by
  obtain ⟨h0, hd, hv⟩ := h
  cases t with
  | nil => exact absurd rfl h0
  | cons c t =>
    have hc := hd c (by simp)
    obtain ⟨hs, hm, hp⟩ := isDigit_plain hc
    have h1 : (c :: t).dropWhile isSpace = c :: t := by simp [hs]
    have h2 : sign (c :: t) = (false, c :: t) := by rw [sign, if_neg hm, if_neg hp]
    unfold stoll
    simp only [h1, h2]
    simp only [hc, ↓reduceIte, Bool.false_eq_true, digits_eq hd, hv]
    rw [if_pos]
    constructor
    · have : (0 : Int) ≤ n := Int.natCast_nonneg n
      omega
    · omega

theorem cast_fits {k : Kind} {n : Nat} (h : Fits k n) : cast k n = n := by
  cases k with
  | uint => simp only [Fits] at h; simp only [cast]; omega
  | int =>
    simp only [Fits] at h
    simp only [cast, Int.bmod_def]
    split <;> omega
  | flag => rfl

theorem fits_lt {k : Kind} {n : Nat} (h : Fits k n) (hk : k ≠ .flag) : n < 2 ^ 63 := by
  cases k with
  | uint => simp only [Fits] at h; omega
  | int => simp only [Fits] at h; omega
  | flag => exact absurd rfl hk

/-- the token noted for a setting gives its value -/
def Holds (o : Opt) (n : Nat) (t : Tok) : Prop := if o.kind = .flag then n = 1 else stoll t = some (n : Int) ∧ Fits o.kind n

theorem validFirst_dash : validFirst '-' = false := by decide

theorem collect_long {os : List Opt} (hw : WellNamed os) {k : Nat} {o : Opt} (ho : os[k]? = some o) (f : Nat) (ts : List Tok) (r : Res)
    {t value : Tok} (ht : splitLong t = some (o.long.toList, value)) (h2 : t ≠ ['-', '-']) :
    collect os (f + 1) false (t :: ts) r =
      match takeArg o.kind value [] ts with
      | none => none
      | some (ts, vs) => collect os f false ts { r with given := r.given ++ vs.map fun v => (k, v) } := by
  have hm := hw.1 o (List.mem_of_getElem? ho)
  have hh : helpOpt.named true o.long.toList = false := by
    simp only [Opt.named, helpOpt, ↓reduceIte]
    exact decide_eq_false hm.2.2.1
  have hf := findIdx_named hw ho true (name := o.long.toList) (by simp [Opt.named])
  rw [collect]
  simp only [Bool.false_eq_true, ↓reduceIte, h2, ht, hh, hf, ho]
  cases takeArg o.kind value [] ts <;> rfl

theorem collect_short {os : List Opt} (hw : WellNamed os) {k : Nat} {o : Opt} (ho : os[k]? = some o) (f : Nat) (ts : List Tok) (r : Res) (rest : Tok) :
    collect os (f + 1) false (('-' :: o.short :: rest) :: ts) r =
      match takeArg o.kind [] rest ts with
      | none => none
      | some (ts, vs) => collect os f false ts { r with given := r.given ++ vs.map fun v => (k, v) } := by
  have hm := hw.1 o (List.mem_of_getElem? ho)
  have hd : o.short ≠ '-' := by
    intro h; rw [h] at hm; exact absurd hm.1 (by decide)
  have hh : helpOpt.named false [o.short] = false := by
    simp only [Opt.named, helpOpt, Bool.false_eq_true, ↓reduceIte, decide_eq_false_iff_not, List.cons.injEq, and_true]
    exact hm.2.1
  have hf := findIdx_named hw ho false (name := [o.short]) (by simp [Opt.named])
  have h1 : splitLong ('-' :: o.short :: rest) = none := by
    cases rest <;> simp [splitLong, hd]
  have h2 : splitShort ('-' :: o.short :: rest) = some (o.short, rest) := by simp [splitShort, hm.1]
  have h3 : ('-' :: o.short :: rest : Tok) ≠ ['-', '-'] := by simp [hd]
  rw [collect]
  simp only [Bool.false_eq_true, ↓reduceIte, h3, h1, h2, hh, hf, ho]
  cases takeArg o.kind [] rest ts <;> rfl

theorem splitLong_bare {os : List Opt} (hw : WellNamed os) {o : Opt} (ho : o ∈ os) :
    splitLong ('-' :: '-' :: o.long.toList) = some (o.long.toList, []) ∧ ('-' :: '-' :: o.long.toList : Tok) ≠ ['-', '-'] := by
  obtain ⟨-, -, -, he, c, rest, hl, hc⟩ := hw.1 o ho
  have := takeWhile_bare he
  rw [hl] at this ⊢
  refine ⟨?_, by simp⟩
  simp only [splitLong, hc, ↓reduceIte, this.1, this.2, List.drop_nil]

theorem splitLong_equal {os : List Opt} (hw : WellNamed os) {o : Opt} (ho : o ∈ os) (t : Tok) :
    splitLong ('-' :: '-' :: (o.long.toList ++ '=' :: t)) = some (o.long.toList, t) ∧
      ('-' :: '-' :: (o.long.toList ++ '=' :: t) : Tok) ≠ ['-', '-'] := by
  obtain ⟨-, -, -, he, c, rest, hl, hc⟩ := hw.1 o ho
  have := takeWhile_long (t := t) he
  rw [hl] at this ⊢
  refine ⟨?_, by simp⟩
  simp only [List.cons_append] at this ⊢
  simp only [splitLong, hc, ↓reduceIte, this.1, this.2, List.drop_succ_cons, List.drop_zero]

/-- one setting takes one round -/
theorem collect_written {os : List Opt} (hw : WellNamed os) {k n : Nat} {o : Opt} (ho : os[k]? = some o) {ts : List Tok} (h : Written o n ts) :
    ∃ t, Holds o n t ∧ ∀ (f : Nat) (ts' : List Tok) (r : Res),
      collect os (f + 1) false (ts ++ ts') r = collect os f false ts' { r with given := r.given ++ [(k, t)] } := by
  have hm := List.mem_of_getElem? ho
  cases h with
  | @short _ t hk hn hf =>
    refine ⟨t, by rw [Holds, if_neg hk]; exact ⟨stoll_numeral hn (fits_lt hf hk), hf⟩, fun f ts' r => ?_⟩
    rw [List.cons_append, collect_short hw ho]
    simp [takeArg, hk]
  | @glued _ t hk hn hf =>
    refine ⟨t, by rw [Holds, if_neg hk]; exact ⟨stoll_numeral hn (fits_lt hf hk), hf⟩, fun f ts' r => ?_⟩
    rw [List.cons_append, collect_short hw ho]
    simp [takeArg, hk, hn.1]
  | @long _ t hk hn hf =>
    refine ⟨t, by rw [Holds, if_neg hk]; exact ⟨stoll_numeral hn (fits_lt hf hk), hf⟩, fun f ts' r => ?_⟩
    rw [List.cons_append, collect_long hw ho _ _ _ (splitLong_bare hw hm).1 (splitLong_bare hw hm).2]
    simp [takeArg, hk]
  | @equal _ t hk hn hf =>
    refine ⟨t, by rw [Holds, if_neg hk]; exact ⟨stoll_numeral hn (fits_lt hf hk), hf⟩, fun f ts' r => ?_⟩
    rw [List.cons_append, collect_long hw ho _ _ _ (splitLong_equal hw hm t).1 (splitLong_equal hw hm t).2]
    simp [takeArg, hk, hn.1]
  | flag hk =>
    refine ⟨[], by rw [Holds, if_pos hk], fun f ts' r => ?_⟩
    rw [List.cons_append, collect_short hw ho]
    simp [takeArg, hk]
  | flagLong hk =>
    refine ⟨[], by rw [Holds, if_pos hk], fun f ts' r => ?_⟩
    rw [List.cons_append, collect_long hw ho _ _ _ (splitLong_bare hw hm).1 (splitLong_bare hw hm).2]
    simp [takeArg, hk]

theorem written_length {o : Opt} {n : Nat} {ts : List Tok} (h : Written o n ts) : 1 ≤ (ts.map (·.length + 1)).sum := by
  cases h <;> simp <;> omega

/-- what is noted for a line -/
def Notes (os : List Opt) (gs : List (Nat × Nat)) (xs : List (Nat × Tok)) : Prop :=
  List.Forall₂ (fun g x => g.1 = x.1 ∧ ∃ o, os[g.1]? = some o ∧ Holds o g.2 x.2) gs xs

theorem collect_spelled {os : List Opt} (hw : WellNamed os) {gs : List (Nat × Nat)} {ts : List Tok} (h : Spelled os gs ts) :
    ∃ xs, Notes os gs xs ∧ ∀ (f : Nat) (r : Res), (ts.map (·.length + 1)).sum < f →
      collect os f false ts r = some { r with given := r.given ++ xs } := by
  induction h with
  | nil =>
    refine ⟨[], List.Forall₂.nil, fun f r hf => ?_⟩
    cases f with
    | zero => omega
    | succ f => simp [collect]
  | @cons k n o ts ts' gs ho hwr _ ih =>
    obtain ⟨xs, hx, hc⟩ := ih
    obtain ⟨t, ht, hr⟩ := collect_written hw ho hwr
    refine ⟨(k, t) :: xs, List.Forall₂.cons ⟨rfl, o, ho, ht⟩ hx, fun f r hf => ?_⟩
    have := written_length hwr
    rw [List.map_append, List.sum_append] at hf
    cases f with
    | zero => omega
    | succ f => rw [hr, hc _ _ (by omega)]; simp

theorem notes_of {os : List Opt} {gs : List (Nat × Nat)} {xs : List (Nat × Tok)} (h : Notes os gs xs) {k : Nat} {o : Opt} (ho : os[k]? = some o) :
    List.Forall₂ (fun g t => Holds o g.2 t) (gs.filter (·.1 = k)) (xs.filterMap fun x => if x.1 = k then some x.2 else none) := by
  induction h with
  | nil => simp
  | @cons g x gs xs hg _ ih =>
    obtain ⟨h1, o', ho', hh⟩ := hg
    by_cases hk : g.1 = k
    · have hx : x.1 = k := by rw [← h1, hk]
      rw [hk, ho] at ho'
      injection ho' with ho'
      subst ho'
      simp only [List.filter_cons, hk, decide_true, ↓reduceIte, List.filterMap_cons, hx]
      exact List.Forall₂.cons hh ih
    · have hx : ¬ x.1 = k := by rw [← h1]; exact hk
      simpa only [List.filter_cons, hk, decide_false, Bool.false_eq_true, ↓reduceIte, List.filterMap_cons, hx] using ih

theorem lastOf_filter (k : Nat) (gs : List (Nat × Nat)) (d : Int) : lastOf k gs d = lastOf k (gs.filter (·.1 = k)) d := by
  unfold lastOf
  induction gs generalizing d with
  | nil => rfl
  | cons g gs ih =>
    by_cases hk : g.1 = k
    · simp only [List.filter_cons, hk, decide_true, ↓reduceIte, List.foldl_cons]; exact ih _
    · simp only [List.filter_cons, hk, decide_false, Bool.false_eq_true, ↓reduceIte, List.foldl_cons]; exact ih _

theorem forall₂_one {α β : Type} {R : α → β → Prop} {l : List α} {l' : List β} (h : List.Forall₂ R l l') (hl : l.length ≤ 1) (hn : l' ≠ []) :
    ∃ a b, l = [a] ∧ l' = [b] ∧ R a b := by
  cases h with
  | nil => exact absurd rfl hn
  | @cons a b l l' hr ht =>
    cases ht with
    | nil => exact ⟨a, b, rfl, rfl, hr⟩
    | cons _ _ => simp at hl

theorem callbacks_notes {os : List Opt} {gs : List (Nat × Nat)} {xs : List (Nat × Tok)} {r : Res} (hr : r.given = xs) (h : Notes os gs xs)
    (h1 : Once os gs) : ∀ (j : Nat) (os' : List Opt) (ms : List Int), (∀ i o, os'[i]? = some o → os[j + i]? = some o) → ms.length = os'.length →
      (callbacks r j os' ms).2 = true ∧ (callbacks r j os' ms).1.length = ms.length ∧
        ∀ i m, ms[i]? = some m → (callbacks r j os' ms).1[i]? = some (lastOf (j + i) gs m) := by
  intro j os'
  induction os' generalizing j with
  | nil =>
    intro ms _ hl
    have : ms = [] := List.eq_nil_of_length_eq_zero hl
    subst this
    simp [callbacks]
  | cons o os' ih =>
    intro ms ho hl
    cases ms with
    | nil => simp at hl
    | cons m ms =>
      have ho0 := ho 0 o (by simp)
      rw [Nat.add_zero] at ho0
      have hn := notes_of h ho0
      have hof : r.of j = xs.filterMap fun x => if x.1 = j then some x.2 else none := by rw [Res.of, hr]
      rw [← hof] at hn
      obtain ⟨i1, i2, i3⟩ := ih (j + 1) ms (fun i o' hi => by have := ho (i + 1) o' (by simpa using hi); rwa [show j + 1 + i = j + (i + 1) by omega])
        (by simpa using hl)
      have step : ∀ v : Int, lastOf j gs m = v → 
          (v :: (callbacks r (j + 1) os' ms).1).length = (m :: ms).length ∧
          ∀ i m', (m :: ms)[i]? = some m' → (v :: (callbacks r (j + 1) os' ms).1)[i]? = some (lastOf (j + i) gs m') := by
        intro v hv
        refine ⟨by simp [i2], fun i m' hi => ?_⟩
        cases i with
        | zero => simp only [List.getElem?_cons_zero, Option.some.injEq] at hi ⊢; subst hi; rw [Nat.add_zero, hv]
        | succ i =>
          simp only [List.getElem?_cons_succ] at hi ⊢
          rw [i3 i m' hi, show j + 1 + i = j + (i + 1) by omega]
      rw [callbacks]
      have hlast := lastOf_filter j gs m
      by_cases he : r.of j = []
      · rw [he] at hn
        have hg : gs.filter (·.1 = j) = [] := by cases hn' : gs.filter (·.1 = j) <;> simp_all
        rw [if_pos he]
        exact ⟨i1, step m (by rw [hlast, hg]; rfl)⟩
      · rw [if_neg he]
        have hv : callback o (r.of j) = some (lastOf j gs m) := by
          by_cases hk : o.kind = .flag
          · simp only [callback, hk]
            rw [hlast]
            have hall : ∀ g ∈ gs.filter (·.1 = j), g.2 = 1 := by
              intro g hg
              obtain ⟨i, hi⟩ := List.mem_iff_getElem?.1 hg
              have := (List.forall₂_iff_get.1 hn).2
              obtain ⟨hil, hig⟩ := List.getElem?_eq_some_iff.1 hi
              have := this i hil (by rw [← hn.length_eq]; exact hil)
              simp only [List.get_eq_getElem, hig, Holds, hk, if_true] at this
              exact this
            have hne : gs.filter (·.1 = j) ≠ [] := by
              intro h0
              rw [h0] at hn
              exact he (List.forall₂_nil_left_iff.1 hn)
            have hj : ∀ g ∈ gs.filter (·.1 = j), g.1 = j := fun g hg => by simpa using (List.mem_filter.1 hg).2
            have key : ∀ (l : List (Nat × Nat)), (∀ g ∈ l, g.2 = 1) → (∀ g ∈ l, g.1 = j) → ∀ d : Int, (l = [] → d = 1) → lastOf j l d = 1 := by
              intro l
              induction l with
              | nil => intro _ _ d hd; exact hd rfl
              | cons g l ihl =>
                intro ha hb d _
                show lastOf j l (if g.1 = j then (g.2 : Int) else d) = 1
                rw [if_pos (hb g (by simp)), ha g (by simp)]
                exact ihl (fun g hg => ha g (by simp [hg])) (fun g hg => hb g (by simp [hg])) _ (fun _ => rfl)
            rw [key _ hall hj m (fun h0 => absurd h0 hne)]
          · have hle := h1 j o ho0 hk
            obtain ⟨g, t, hg, hro, hh⟩ := forall₂_one hn hle he
            rw [Holds, if_neg hk] at hh
            have hgj : g.1 = j := by
              have : g ∈ gs.filter (·.1 = j) := by rw [hg]; simp
              simpa using (List.mem_filter.1 this).2
            rw [hlast, hg, hro]
            have : lastOf j [g] m = (g.2 : Int) := by simp [lastOf, hgj]
            rw [this]
            cases hkk : o.kind with
            | flag => exact absurd hkk hk
            | uint => simp only [callback, hkk, hh.1, Option.map_some]; rw [cast_fits (by rw [← hkk]; exact hh.2)]
            | int => simp only [callback, hkk, hh.1, Option.map_some]; rw [cast_fits (by rw [← hkk]; exact hh.2)]
        rw [hv]
        exact ⟨i1, step _ rfl⟩

/-- what a proper line does to the members -/
theorem parse_says {os : List Opt} (hw : WellNamed os) {gs : List (Nat × Nat)} {ts : List Tok} (h : Says os gs ts) {ms : List Int}
    (hl : ms.length = os.length) :
    (parse os ts ms).2 = true ∧ (parse os ts ms).1.length = os.length ∧
      ∀ i m, ms[i]? = some m → (parse os ts ms).1[i]? = some (lastOf i gs m) := by
  obtain ⟨xs, hx, hc⟩ := collect_spelled hw h.1
  have hc := hc (rounds ts) {} (by rw [rounds]; omega)
  have := callbacks_notes (r := { given := xs }) rfl hx h.2 0 os ms (fun i o hi => by rwa [Nat.zero_add]) hl
  unfold parse
  rw [hc]
  simp only [Bool.false_eq_true, ↓reduceIte, List.nil_append, Bool.not_false, Bool.and_true]
  refine ⟨this.1, by rw [this.2.1, hl], fun i m hi => ?_⟩
  have := this.2.2 i m hi
  rwa [Nat.zero_add] at this

/-! ### the loop ends -/

/-- characters and arguments left, for the loop of CLI11.hpp 2549-2551 -/
def weight (ts : List Tok) : Nat := (ts.map (·.length + 1)).sum

theorem weight_cons (t : Tok) (ts : List Tok) : weight (t :: ts) = t.length + 1 + weight ts := by simp [weight]

theorem weight_dropWhile (p : Tok → Bool) (ts : List Tok) : weight (ts.dropWhile p) ≤ weight ts := by
  induction ts with
  | nil => simp
  | cons t ts ih =>
    rw [List.dropWhile_cons, weight_cons]
    split
    · omega
    · rw [weight_cons]; omega

theorem takeArg_weight {k : Kind} {value rest : Tok} {ts ts' vs : List Tok} (h : takeArg k value rest ts = some (ts', vs)) :
    weight ts' ≤ weight ts + (if rest = [] then 0 else rest.length + 2) := by
  unfold takeArg at h
  have hd := weight_dropWhile isPlain ts
  split at h
  · split at h <;> simp only [Option.some.injEq, Prod.mk.injEq] at h <;> rw [← h.1] <;> omega
  · split at h
    · simp only [Option.some.injEq, Prod.mk.injEq] at h
      rw [← h.1]
      split
      · omega
      · rw [weight_cons, List.length_cons]; omega
    · split at h
      · simp only [Option.some.injEq, Prod.mk.injEq] at h; rw [← h.1]; omega
      · split at h
        · exact absurd h (by simp)
        · simp only [Option.some.injEq, Prod.mk.injEq] at h; rw [← h.1, weight_cons]; omega

theorem splitShort_length {t : Tok} {c : Char} {rest : Tok} (h : splitShort t = some (c, rest)) : t.length = rest.length + 2 := by
  unfold splitShort at h
  split at h
  · split at h
    · simp only [Option.some.injEq, Prod.mk.injEq] at h; rw [← h.2]; simp
    · exact absurd h (by simp)
  · exact absurd h (by simp)

theorem collect_succ (os : List Opt) : ∀ (f : Nat) (p : Bool) (ts : List Tok) (r : Res), weight ts < f →
    collect os f p ts r = collect os (f + 1) p ts r := by
  intro f
  induction f with
  | zero => intro p ts r h; omega
  | succ f ih =>
    intro p ts r h
    cases ts with
    | nil => simp [collect]
    | cons t ts =>
      rw [weight_cons] at h
      rw [collect, collect.eq_def os (f + 1 + 1)]
      dsimp only
      split
      · exact ih _ _ _ (by omega)
      · split
        · exact ih _ _ _ (by omega)
        · split
          · rename_i name value hl
            split
            · split
              · rfl
              · rename_i ts' _ ht
                have := takeArg_weight ht
                simp only [↓reduceIte] at this
                exact ih _ _ _ (by omega)
            · split
              · exact ih _ _ _ (by omega)
              · split
                · rfl
                · split
                  · rfl
                  · rename_i ts' _ ht
                    have := takeArg_weight ht
                    simp only [↓reduceIte] at this
                    exact ih _ _ _ (by omega)
          · rename_i c rest _ hs
            have hlen := splitShort_length hs
            split
            · split
              · rfl
              · rename_i ts' _ ht
                have := takeArg_weight ht
                exact ih _ _ _ (by split at this <;> omega)
            · split
              · exact ih _ _ _ (by omega)
              · split
                · rfl
                · split
                  · rfl
                  · rename_i ts' _ ht
                    have := takeArg_weight ht
                    exact ih _ _ _ (by split at this <;> omega)
          · exact ih _ _ _ (by omega)

theorem collect_enough (os : List Opt) (p : Bool) (ts : List Tok) (r : Res) (f : Nat) (hf : rounds ts ≤ f) :
    collect os f p ts r = collect os (rounds ts) p ts r := by
  induction f with
  | zero => rw [rounds] at hf; omega
  | succ f ih =>
    by_cases h : rounds ts = f + 1
    · rw [h]
    · rw [← collect_succ os f p ts r (by rw [rounds] at hf h; rw [weight]; omega), ih (by omega)]

/-! ### lines that are refused -/

/-- a spelled beginning of a line takes one round per setting -/
theorem collect_prefix {os : List Opt} (hw : WellNamed os) {gs : List (Nat × Nat)} {ts : List Tok} (h : Spelled os gs ts) :
    ∃ xs, Notes os gs xs ∧ ∀ (f : Nat) (rest : List Tok) (r : Res),
      collect os (f + gs.length) false (ts ++ rest) r = collect os f false rest { r with given := r.given ++ xs } := by
  induction h with
  | nil => exact ⟨[], List.Forall₂.nil, fun f rest r => by simp⟩
  | @cons k n o ts ts' gs ho hwr _ ih =>
    obtain ⟨xs, hx, hc⟩ := ih
    obtain ⟨t, ht, hr⟩ := collect_written hw ho hwr
    refine ⟨(k, t) :: xs, List.Forall₂.cons ⟨rfl, o, ho, ht⟩ hx, fun f rest r => ?_⟩
    rw [List.length_cons, ← Nat.add_assoc, List.append_assoc, hr, hc]
    simp

/-- the result of the loop, with as many rounds as one likes -/
theorem collect_any {os : List Opt} {ts : List Tok} {r : Res} {x : Option Res} (h : ∃ f0, ∀ f, f0 ≤ f → collect os f false ts r = x) :
    collect os (rounds ts) false ts r = x := by
  obtain ⟨f0, h⟩ := h
  rw [← collect_enough os false ts r (max f0 (rounds ts)) (Nat.le_max_right _ _)]
  exact h _ (Nat.le_max_left _ _)

theorem callbacks_fail {r : Res} {k : Nat} : ∀ (j : Nat) (os : List Opt) (ms : List Int) {o : Opt}, os[k]? = some o → ms.length = os.length →
    r.of (j + k) ≠ [] → callback o (r.of (j + k)) = none → (callbacks r j os ms).2 = false := by
  induction k with
  | zero =>
    intro j os ms o ho hl h1 h2
    match os, ms with
    | [], _ => simp at ho
    | _ :: _, [] => simp at hl
    | o' :: os, m :: ms =>
      simp only [List.getElem?_cons_zero, Option.some.injEq] at ho
      subst ho
      rw [Nat.add_zero] at h1 h2
      rw [callbacks, if_neg h1, h2]
  | succ k ih =>
    intro j os ms o ho hl h1 h2
    match os, ms with
    | [], _ => simp at ho
    | _ :: _, [] => simp at hl
    | o' :: os, m :: ms =>
      simp only [List.getElem?_cons_succ] at ho
      rw [show j + (k + 1) = j + 1 + k by omega] at h1 h2
      have := ih (j + 1) os ms ho (by simpa using hl) h1 h2
      rw [callbacks]
      split
      · exact this
      · split
        · rfl
        · exact this

theorem stoll_no_digit {t : Tok} (h : ∀ c ∈ t, c.isDigit = false) : stoll t = none := by
  have hs : ∀ c ∈ (sign (t.dropWhile isSpace)).2, c.isDigit = false := by
    have hd : ∀ c ∈ t.dropWhile isSpace, c.isDigit = false := fun c hc => h c ((List.dropWhile_suffix isSpace).subset hc)
    revert hd
    cases t.dropWhile isSpace with
    | nil => intro _ c hc; simp [sign] at hc
    | cons a l =>
      intro hd c hc
      simp only [sign] at hc
      split at hc
      · exact hd c (List.mem_cons_of_mem _ hc)
      · split at hc
        · exact hd c (List.mem_cons_of_mem _ hc)
        · exact hd c hc
  unfold stoll
  dsimp only
  split
  · rfl
  · rename_i c l he
    rw [if_neg]
    rw [hs c (by rw [he]; simp)]
    decide

theorem of_append (a b : List (Nat × Tok)) (k : Nat) (h e : Bool) :
    (⟨a ++ b, h, e⟩ : Res).of k = (⟨a, h, e⟩ : Res).of k ++ (⟨b, h, e⟩ : Res).of k := by simp [Res.of]

/-! ### flags -/

theorem callbacks_flag (r : Res) {k : Nat} : ∀ (j : Nat) (os : List Opt) (ms : List Int) {o : Opt}, os[k]? = some o → o.kind = .flag →
    ms[k]? = some 1 → (callbacks r j os ms).1[k]? = some 1 := by
  induction k with
  | zero =>
    intro j os ms o ho hk hm
    match os, ms with
    | [], _ => simp at ho
    | _ :: _, [] => simp at hm
    | o' :: os, m :: ms =>
      simp only [List.getElem?_cons_zero, Option.some.injEq] at ho hm
      subst ho hm
      rw [callbacks]
      split
      · simp
      · have : callback o' (r.of j) = some 1 := by simp [callback, hk]
        rw [this]; simp
  | succ k ih =>
    intro j os ms o ho hk hm
    match os, ms with
    | [], _ => simp at ho
    | _ :: _, [] => simp at hm
    | o' :: os, m :: ms =>
      simp only [List.getElem?_cons_succ] at ho hm
      rw [callbacks]
      split
      · simpa using ih (j + 1) os ms ho hk hm
      · split
        · simpa using hm
        · simpa using ih (j + 1) os ms ho hk hm

theorem parse_flag {os : List Opt} {k : Nat} {o : Opt} (ho : os[k]? = some o) (hk : o.kind = .flag) (ts : List Tok) {ms : List Int}
    (hm : ms[k]? = some 1) : (parse os ts ms).1[k]? = some 1 := by
  unfold parse
  split
  · exact hm
  · split
    · exact hm
    · exact callbacks_flag _ 0 os ms ho hk hm

theorem callbacks_length (r : Res) (j : Nat) (os : List Opt) (ms : List Int) : (callbacks r j os ms).1.length = ms.length := by
  induction os generalizing j ms with
  | nil => simp [callbacks]
  | cons o os ih =>
    cases ms with
    | nil => simp [callbacks]
    | cons m ms =>
      rw [callbacks]
      split
      · simp [ih]
      · split
        · rfl
        · simp [ih]

theorem parse_length (os : List Opt) (ts : List Tok) (ms : List Int) : (parse os ts ms).1.length = ms.length := by
  unfold parse
  split
  · rfl
  · split
    · rfl
    · exact callbacks_length _ _ _ _

/-! ### sessions -/

theorem lastOf_append (k : Nat) (a b : List (Nat × Nat)) (d : Int) : lastOf k (a ++ b) d = lastOf k b (lastOf k a d) := by
  simp [lastOf, List.foldl_append]

theorem lastOf_meant (k d : Nat) (gs : List (Nat × Nat)) : lastOf k gs (d : Int) = (meant k d gs : Nat) := by
  unfold meant
  induction gs using List.reverseRecOn generalizing d with
  | nil => rfl
  | append_singleton gs g ih =>
    rw [lastOf_append, List.filter_append]
    by_cases hg : g.1 = k
    · simp [lastOf, hg]
    · simp only [lastOf, List.foldl_cons, List.foldl_nil, hg, ↓reduceIte, decide_false, Bool.false_eq_true, not_false_eq_true,
        List.filter_cons_of_neg, List.filter_nil, List.append_nil]
      exact ih d

theorem spelled_flag {os : List Opt} {gs : List (Nat × Nat)} {ts : List Tok} (h : Spelled os gs ts) {k : Nat} {o : Opt} (ho : os[k]? = some o)
    (hk : o.kind = .flag) : ∀ g ∈ gs, g.1 = k → g.2 = 1 := by
  induction h with
  | nil => simp
  | @cons k' n o' ts ts' gs ho' hw _ ih =>
    intro g hg hgk
    rcases List.mem_cons.1 hg with rfl | hg'
    · simp only at hgk
      subst hgk
      rw [ho] at ho'
      injection ho' with ho'
      subst ho'
      cases hw <;> first | rfl | (rename_i hne _ _; exact absurd hk hne)
    · exact ih g hg' hgk

theorem lastOf_flag {gs : List (Nat × Nat)} {k : Nat} (h : ∀ g ∈ gs, g.1 = k → g.2 = 1) :
    lastOf k gs 0 = if gives gs k then 1 else 0 := by
  induction gs using List.reverseRecOn with
  | nil => rfl
  | append_singleton gs g ih =>
    have ih := ih fun g' hg' => h g' (by simp [hg'])
    rw [lastOf_append, ih]
    by_cases hg : g.1 = k
    · have := h g (by simp) hg
      simp [lastOf, gives, hg, this]
    · simp only [lastOf, gives, hg, List.foldl_cons, List.foldl_nil, ↓reduceIte, List.any_append, List.any_cons, List.any_nil, decide_false,
        Bool.or_false]
      split <;> rename_i hs <;> simp only [hs, ↓reduceIte, Bool.false_eq_true]

theorem saysAll_flag {os : List Opt} {gss : List (List (Nat × Nat))} {ls : List (Nat × List Tok)} (h : SaysAll os gss ls) {k : Nat} {o : Opt}
    (ho : os[k]? = some o) (hk : o.kind = .flag) : ∀ g ∈ gss.flatten, g.1 = k → g.2 = 1 := by
  induction h with
  | nil => simp
  | cons hs _ ih =>
    intro g hg
    rw [List.flatten_cons, List.mem_append] at hg
    rcases hg with hg | hg
    · exact spelled_flag hs.1 ho hk g hg
    · exact ih g hg

/-- the members after a session of proper lines, if `execute` leaves option `k` alone -/
theorem after_says {γ : Type} (c : Command γ) (hw : WellNamed c.opts) (P : Nat → Prop) (k : Nat)
    (hlen : ∀ a ms, (c.exec a ms).1.length = ms.length) (hx : ∀ a, P a → ∀ ms, (c.exec a ms).1[k]? = ms[k]?)
    {gss : List (List (Nat × Nat))} {ls : List (Nat × List Tok)} (h : SaysAll c.opts gss ls) (hP : ∀ l ∈ ls, P l.1) :
    ∀ {ms : List Int}, ms.length = c.opts.length → (c.after ls ms).length = c.opts.length ∧
      ∀ m, ms[k]? = some m → (c.after ls ms)[k]? = some (lastOf k gss.flatten m) := by
  induction h with
  | nil => intro ms hm; exact ⟨hm, fun m h => h⟩
  | @cons gs l gss ls hs _ ih =>
    intro ms hm
    obtain ⟨h1, h2, h3⟩ := parse_says hw hs hm
    have hline : c.line l.1 l.2 ms = c.exec l.1 (parse c.opts l.2 ms).1 := by simp [Command.line, h1]
    have hl2 : (c.line l.1 l.2 ms).1.length = c.opts.length := by rw [hline, hlen, h2]
    obtain ⟨i1, i2⟩ := ih (fun l hl => hP l (by simp [hl])) hl2
    refine ⟨i1, fun m hk => ?_⟩
    rw [Command.after, List.flatten_cons, lastOf_append]
    refine i2 _ ?_
    rw [hline, hx _ (hP l (by simp)), h3 k m hk]

end Verif.Cli.Opts
