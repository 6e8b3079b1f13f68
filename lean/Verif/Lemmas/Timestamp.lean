import Verif.Model.Timestamp

/-! The elements of layouts as relations between a value and what is read of it. -/

set_option linter.unusedSimpArgs false
set_option linter.unusedVariables false

namespace Verif.Timestamp

/-- The text does not begin with a digit. -/
def NoDig (r : List Char) : Prop := ∀ c r', r = c :: r' → digit c = false

theorem noDig_nil : NoDig [] := by intro c r' h; cases h

theorem noDig_cons {c : Char} {r : List Char} (h : digit c = false) : NoDig (c :: r) := by
  intro c' r' he; cases he; exact h

/-- A number of one digit or two at the beginning of a value. -/
def Num (fixed : Bool) (x r : List Char) (n : Nat) : Prop :=
  (∃ a b, x = [a, b] ∧ digit a = true ∧ digit b = true ∧ n = digitVal a * 10 + digitVal b) ∨
    (fixed = false ∧ ∃ a, x = [a] ∧ digit a = true ∧ n = digitVal a ∧ NoDig r)

theorem getnum_iff {fixed : Bool} {v r : List Char} {n : Nat} :
    getnum fixed v = some (n, r) ↔ ∃ x, v = x ++ r ∧ Num fixed x r n := by
  constructor
  · intro h
    match v, h with
    | [], h => simp [getnum] at h
    | [a], h =>
      simp only [getnum] at h
      split at h
      · rename_i ha
        split at h
        · cases h
        · rename_i hf
          cases h
          exact ⟨[a], rfl, .inr ⟨by simpa using hf, a, rfl, ha, rfl, noDig_nil⟩⟩
      · cases h
    | a :: b :: r', h =>
      simp only [getnum] at h
      split at h
      · rename_i ha
        split at h
        · rename_i hb
          cases h
          exact ⟨[a, b], rfl, .inl ⟨a, b, rfl, ha, hb, rfl⟩⟩
        · rename_i hb
          split at h
          · cases h
          · rename_i hf
            cases h
            exact ⟨[a], rfl, .inr ⟨by simpa using hf, a, rfl, ha, rfl, noDig_cons (by simpa using hb)⟩⟩
      · cases h
  · rintro ⟨x, rfl, ⟨a, b, rfl, ha, hb, rfl⟩ | ⟨rfl, a, rfl, ha, rfl, hr⟩⟩
    · simp [getnum, ha, hb]
    · match r, hr with
      | [], _ => simp [getnum, ha]
      | c :: r', hr => simp [getnum, ha, hr c r' rfl]

/-- A fraction of a second at the beginning of a value. -/
def Fr (x r : List Char) (n : Nat) : Prop :=
  ∃ c ds, x = c :: ds ∧ ds ≠ [] ∧ commaOrPeriod c = true ∧ (∀ d ∈ ds, digit d = true) ∧ n = nanoseconds ds ∧ NoDig r

/-- No fraction of a second at the beginning of a value. -/
def NoFr (v : List Char) : Prop := ∀ c d r, v = c :: d :: r → commaOrPeriod c = true → digit d = false

theorem noFr_nil : NoFr [] := by intro c d r h; cases h

theorem noFr_cons {c : Char} {r : List Char} (h : commaOrPeriod c = false) : NoFr (c :: r) := by
  intro c' d r' he hc; cases he; simp [h] at hc

theorem takeWhile_noDig {ds r : List Char} (h : ∀ d ∈ ds, digit d = true) (hr : NoDig r) :
    (ds ++ r).takeWhile digit = ds ∧ (ds ++ r).dropWhile digit = r := by
  induction ds with
  | nil =>
    match r, hr with
    | [], _ => simp
    | c :: r', hr => simp [List.takeWhile_cons, List.dropWhile_cons, hr c r' rfl]
  | cons d ds ih =>
    have hd := h d (by simp)
    have := ih (fun d hd => h d (by simp [hd]))
    simp [List.takeWhile_cons, List.dropWhile_cons, hd, this]

theorem dropWhile_noDig (r : List Char) : NoDig (r.dropWhile digit) := by
  induction r with
  | nil => exact noDig_nil
  | cons c r ih =>
    rw [List.dropWhile_cons]
    split
    · exact ih
    · rename_i h; exact noDig_cons (by simpa using h)

theorem takeWhile_digits (r : List Char) : ∀ d ∈ r.takeWhile digit, digit d = true := by
  induction r with
  | nil => simp
  | cons c r ih =>
    rw [List.takeWhile_cons]
    split
    · rename_i h; intro d hd; rcases List.mem_cons.1 hd with rfl | hd
      · exact h
      · exact ih d hd
    · simp

theorem fraction_iff {v r : List Char} {n : Nat} : fraction v = some (n, r) ↔ ∃ x, v = x ++ r ∧ Fr x r n := by
  constructor
  · intro h
    match v, h with
    | [], h => simp [fraction] at h
    | [a], h => simp [fraction] at h
    | c :: d :: r', h =>
      simp only [fraction] at h
      split at h
      · rename_i hc
        simp only [Bool.and_eq_true] at hc
        cases h
        refine ⟨c :: d :: r'.takeWhile digit, ?_, c, d :: r'.takeWhile digit, rfl, by simp, hc.1, ?_, rfl,
          dropWhile_noDig r'⟩
        · simp [List.takeWhile_append_dropWhile]
        · intro e he; rcases List.mem_cons.1 he with rfl | he
          · exact hc.2
          · exact takeWhile_digits r' e he
      · cases h
  · rintro ⟨x, rfl, c, ds, rfl, hne, hc, hds, rfl, hr⟩
    match ds, hne, hds with
    | d :: ds, _, hds =>
      have := takeWhile_noDig (ds := ds) (r := r) (fun d hd => hds d (by simp [hd])) hr
      simp [fraction, hc, hds d (by simp), this]

theorem fraction_none {v : List Char} : fraction v = none ↔ NoFr v := by
  constructor
  · intro h c d r he hc
    subst he
    simp only [fraction, hc, Bool.true_and] at h
    cases hd : digit d with
    | false => rfl
    | true => simp [hd] at h
  · intro h
    match v, h with
    | [], _ => rfl
    | [a], _ => rfl
    | c :: d :: r, h =>
      have := h c d r rfl
      cases hc : commaOrPeriod c with
      | false => simp [fraction, hc]
      | true => simp [fraction, hc, this hc]

/-- An optional fraction of a second. -/
def OptFr (x r : List Char) (n m : Nat) : Prop := (x = [] ∧ m = n ∧ NoFr r) ∨ Fr x r m

/-- An offset with a colon. -/
def Zn (x : List Char) (o : Int) : Prop :=
  ∃ s a b d e, x = [s, a, b, ':', d, e] ∧ digit a = true ∧ digit b = true ∧ digit d = true ∧ digit e = true ∧
    digitVal a * 10 + digitVal b ≤ 24 ∧ digitVal d * 10 + digitVal e ≤ 60 ∧
    ((s = '+' ∧ o = (((digitVal a * 10 + digitVal b) * 60 + (digitVal d * 10 + digitVal e)) * 60 : Nat)) ∨
      (s = '-' ∧ o = -(((digitVal a * 10 + digitVal b) * 60 + (digitVal d * 10 + digitVal e)) * 60 : Nat)))

theorem zone_iff {t t' : Time} {v r : List Char} :
    item.zone t v = some (t', r) ↔ ∃ x o, v = x ++ r ∧ Zn x o ∧ t' = { t with offset := o } := by
  constructor
  · intro h
    match v, h with
    | s :: a :: b :: c :: d :: e :: r', h =>
      simp only [item.zone] at h
      split at h
      · rename_i hc
        subst hc
        split at h
        · rename_i h0 m0 hh mm hn hm
          split at h
          · rename_i hle
            obtain ⟨x, hx, hx'⟩ := getnum_iff.1 hn
            obtain ⟨y, hy, hy'⟩ := getnum_iff.1 hm
            rcases hx' with ⟨a', b', rfl, ha, hb, rfl⟩ | ⟨⟨⟩, _⟩
            rcases hy' with ⟨d', e', rfl, hd, he, rfl⟩ | ⟨⟨⟩, _⟩
            obtain ⟨rfl, rfl, -⟩ : a = a' ∧ b = b' ∧ True := by simp at hx; simp [hx]
            obtain ⟨rfl, rfl, -⟩ : d = d' ∧ e = e' ∧ True := by simp at hy; simp [hy]
            split at h
            · rename_i hs
              cases h
              exact ⟨[s, a, b, ':', d, e], _, rfl, ⟨s, a, b, d, e, rfl, ha, hb, hd, he, hle.1, hle.2, .inl ⟨hs, rfl⟩⟩, rfl⟩
            · split at h
              · rename_i hs
                cases h
                exact ⟨[s, a, b, ':', d, e], _, rfl,
                  ⟨s, a, b, d, e, rfl, ha, hb, hd, he, hle.1, hle.2, .inr ⟨hs, rfl⟩⟩, rfl⟩
              · cases h
          · cases h
        · cases h
      · cases h
    | [], h => simp [item.zone] at h
    | [_], h => simp [item.zone] at h
    | [_, _], h => simp [item.zone] at h
    | [_, _, _], h => simp [item.zone] at h
    | [_, _, _, _], h => simp [item.zone] at h
    | [_, _, _, _, _], h => simp [item.zone] at h
  · rintro ⟨x, o, rfl, ⟨s, a, b, d, e, rfl, ha, hb, hd, he, h1, h2, ⟨rfl, rfl⟩ | ⟨rfl, rfl⟩⟩, rfl⟩
    · simp [item.zone, getnum, ha, hb, hd, he, h1, h2]
    · simp [item.zone, getnum, ha, hb, hd, he, h1, h2]

theorem fractional_iff {t t' : Time} {v r : List Char} :
    item.fractional false t v = (t', r) ↔
      ∃ x m, v = x ++ r ∧ OptFr x r t.nsec m ∧ t' = { t with nsec := m } := by
  simp only [item.fractional, Bool.false_eq_true, if_false]
  constructor
  · intro h
    split at h
    · rename_i n r' hf
      cases h
      obtain ⟨x, rfl, hx⟩ := fraction_iff.1 hf
      exact ⟨x, n, rfl, .inr hx, rfl⟩
    · rename_i hf
      cases h
      exact ⟨[], _, rfl, .inl ⟨rfl, rfl, fraction_none.1 hf⟩, rfl⟩
  · rintro ⟨x, m, rfl, ⟨rfl, rfl, hr⟩ | hx, rfl⟩
    · simp [fraction_none.2 hr]
    · rw [fraction_iff.2 ⟨x, rfl, hx⟩]

/-- What one element reads: the text `x` before the rest `r`. -/
def Item (frac : Bool) (t : Time) (s : Std) (x r : List Char) (t' : Time) : Prop :=
  match s with
  | .longYear => ∃ a b c d, x = [a, b, c, d] ∧ digit a = true ∧ digit b = true ∧ digit c = true ∧ digit d = true ∧
      t' = { t with year := number [a, b, c, d] }
  | .numMonth => ∃ n, Num false x r n ∧ 0 < n ∧ n ≤ 12 ∧ t' = { t with month := n }
  | .zeroMonth => ∃ n, Num true x r n ∧ 0 < n ∧ n ≤ 12 ∧ t' = { t with month := n }
  | .day => ∃ n, Num false x r n ∧ t' = { t with day := n }
  | .zeroDay => ∃ n, Num true x r n ∧ t' = { t with day := n }
  | .hour => ∃ n, Num false x r n ∧ n < 24 ∧ t' = { t with hour := n }
  | .minute => ∃ n, Num false x r n ∧ n < 60 ∧ t' = { t with minute := n }
  | .zeroMinute => ∃ n, Num true x r n ∧ n < 60 ∧ t' = { t with minute := n }
  | .second => ∃ n y z m, x = y ++ z ∧ Num false y (z ++ r) n ∧ n < 60 ∧
      (if frac then z = [] ∧ m = t.nsec else OptFr z r t.nsec m) ∧ t' = { t with second := n, nsec := m }
  | .zeroSecond => ∃ n y z m, x = y ++ z ∧ Num true y (z ++ r) n ∧ n < 60 ∧
      (if frac then z = [] ∧ m = t.nsec else OptFr z r t.nsec m) ∧ t' = { t with second := n, nsec := m }
  | .frac9 => ∃ m, OptFr x r t.nsec m ∧ t' = { t with nsec := m }
  | .isoColonTZ => (x = ['Z'] ∧ t' = { t with offset := 0 }) ∨ ∃ o, Zn x o ∧ t' = { t with offset := o }
  | .numColonTZ => ∃ o, Zn x o ∧ t' = { t with offset := o }

/-- The elements which are a number within bounds. -/
theorem num_iff {fixed : Bool} {v r : List Char} {P : Nat → Prop} [DecidablePred P] {f : Nat → Time} {t' : Time} :
    (match getnum fixed v with
      | some (n, r) => if P n then some (f n, r) else none
      | none => none) = some (t', r) ↔ ∃ x n, v = x ++ r ∧ Num fixed x r n ∧ P n ∧ t' = f n := by
  constructor
  · intro h
    split at h
    · rename_i n r' hg
      split at h
      · rename_i hp
        cases h
        obtain ⟨x, rfl, hx⟩ := getnum_iff.1 hg
        exact ⟨x, n, rfl, hx, hp, rfl⟩
      · cases h
    · cases h
  · rintro ⟨x, n, rfl, hx, hp, rfl⟩
    rw [getnum_iff.2 ⟨x, rfl, hx⟩]
    simp [hp]

theorem num_frac_iff {fixed frac : Bool} {v r : List Char} {f : Nat → Time} {t' : Time} :
    (match getnum fixed v with
      | some (n, r) => if n < 60 then some (item.fractional frac (f n) r) else none
      | none => none) = some (t', r) ↔
    ∃ y z n m, v = (y ++ z) ++ r ∧ Num fixed y (z ++ r) n ∧ n < 60 ∧
      (if frac then z = [] ∧ m = (f n).nsec else OptFr z r (f n).nsec m) ∧ t' = { f n with nsec := m } := by
  constructor
  · intro h
    split at h
    · rename_i n r' hg
      split at h
      · rename_i hp
        obtain ⟨x, rfl, hx⟩ := getnum_iff.1 hg
        have h := Option.some.inj h
        cases frac with
        | true =>
          simp only [item.fractional, if_true] at h
          cases h
          exact ⟨x, [], n, _, by simp, by simpa using hx, hp, by simp, rfl⟩
        | false =>
          obtain ⟨z, m, rfl, hz, rfl⟩ := fractional_iff.1 h
          exact ⟨x, z, n, m, by simp, hx, hp, by simpa using hz, rfl⟩
      · cases h
    · cases h
  · rintro ⟨y, z, n, m, rfl, hx, hp, hz, rfl⟩
    rw [List.append_assoc, getnum_iff.2 ⟨y, rfl, hx⟩]
    simp only [hp, if_true]
    cases frac with
    | true =>
      simp only [if_true] at hz
      obtain ⟨rfl, rfl⟩ := hz
      simp [item.fractional]
    | false =>
      rw [fractional_iff.2 ⟨z, m, rfl, by simpa using hz, rfl⟩]

theorem item_iff {frac : Bool} {t t' : Time} {s : Std} {v r : List Char} :
    item frac t s v = some (t', r) ↔ ∃ x, v = x ++ r ∧ Item frac t s x r t' := by
  cases s
  case longYear =>
    constructor
    · intro h
      match v, h with
      | a :: b :: c :: d :: r', h =>
        simp only [item] at h
        split at h
        · rename_i hd
          simp only [Bool.and_eq_true] at hd
          cases h
          exact ⟨[a, b, c, d], rfl, a, b, c, d, rfl, hd.1.1.1, hd.1.1.2, hd.1.2, hd.2, rfl⟩
        · cases h
      | [], h => simp [item] at h
      | [_], h => simp [item] at h
      | [_, _], h => simp [item] at h
      | [_, _, _], h => simp [item] at h
    · rintro ⟨x, rfl, a, b, c, d, rfl, ha, hb, hc, hd, rfl⟩
      simp [item, ha, hb, hc, hd]
  case numMonth =>
    refine (num_iff (P := fun n => 0 < n ∧ n ≤ 12) (f := fun n => { t with month := n })).trans ?_
    simp only [Item, and_assoc, exists_and_left]
  case zeroMonth =>
    refine (num_iff (P := fun n => 0 < n ∧ n ≤ 12) (f := fun n => { t with month := n })).trans ?_
    simp only [Item, and_assoc, exists_and_left]
  case day =>
    have := num_iff (fixed := false) (v := v) (r := r) (t' := t') (P := fun n => True)
      (f := fun n => { t with day := n })
    simp only [if_true] at this
    refine this.trans ?_
    simp only [Item, and_assoc, exists_and_left, true_and]
  case zeroDay =>
    have := num_iff (fixed := true) (v := v) (r := r) (t' := t') (P := fun n => True)
      (f := fun n => { t with day := n })
    simp only [if_true] at this
    refine this.trans ?_
    simp only [Item, and_assoc, exists_and_left, true_and]
  case hour =>
    refine (num_iff (P := fun n => n < 24) (f := fun n => { t with hour := n })).trans ?_
    simp only [Item, and_assoc, exists_and_left]
  case minute =>
    refine (num_iff (P := fun n => n < 60) (f := fun n => { t with minute := n })).trans ?_
    simp only [Item, and_assoc, exists_and_left]
  case zeroMinute =>
    refine (num_iff (P := fun n => n < 60) (f := fun n => { t with minute := n })).trans ?_
    simp only [Item, and_assoc, exists_and_left]
  case second =>
    refine (num_frac_iff (f := fun n => { t with second := n })).trans ?_
    constructor
    · rintro ⟨y, z, n, m, h1, h2, h3, h4, h5⟩; exact ⟨y ++ z, h1, n, y, z, m, rfl, h2, h3, h4, h5⟩
    · rintro ⟨x, h1, n, y, z, m, rfl, h2, h3, h4, h5⟩; exact ⟨y, z, n, m, h1, h2, h3, h4, h5⟩
  case zeroSecond =>
    refine (num_frac_iff (f := fun n => { t with second := n })).trans ?_
    constructor
    · rintro ⟨y, z, n, m, h1, h2, h3, h4, h5⟩; exact ⟨y ++ z, h1, n, y, z, m, rfl, h2, h3, h4, h5⟩
    · rintro ⟨x, h1, n, y, z, m, rfl, h2, h3, h4, h5⟩; exact ⟨y, z, n, m, h1, h2, h3, h4, h5⟩
  case frac9 =>
    simp only [item, Item]
    constructor
    · intro h
      split at h
      · rename_i n r' hf
        cases h
        obtain ⟨x, rfl, hx⟩ := fraction_iff.1 hf
        exact ⟨x, rfl, n, .inr hx, rfl⟩
      · rename_i hf
        cases h
        exact ⟨[], rfl, _, .inl ⟨rfl, rfl, fraction_none.1 hf⟩, rfl⟩
    · rintro ⟨x, rfl, m, ⟨rfl, rfl, hr⟩ | hx, rfl⟩
      · simp [fraction_none.2 hr]
      · rw [fraction_iff.2 ⟨x, rfl, hx⟩]
  case numColonTZ =>
    simp only [item, Item]
    refine zone_iff.trans ?_
    constructor
    · rintro ⟨x, o, h1, h2, h3⟩; exact ⟨x, h1, o, h2, h3⟩
    · rintro ⟨x, h1, o, h2, h3⟩; exact ⟨x, o, h1, h2, h3⟩
  case isoColonTZ =>
    simp only [Item]
    constructor
    · intro h
      match v, h with
      | [], h => simp [item, item.zone] at h
      | c :: v', h =>
        by_cases hc : c = 'Z'
        · subst hc
          simp only [item] at h
          cases h
          exact ⟨['Z'], rfl, .inl ⟨rfl, rfl⟩⟩
        · have : item.zone t (c :: v') = some (t', r) := by
            rw [← h]; unfold item; split <;> simp_all
          obtain ⟨x, o, h1, h2, h3⟩ := zone_iff.1 this
          exact ⟨x, h1, .inr ⟨o, h2, h3⟩⟩
    · rintro ⟨x, rfl, ⟨rfl, rfl⟩ | ⟨o, ho, rfl⟩⟩
      · rfl
      · have := (zone_iff (t := t) (t' := { t with offset := o }) (r := r)).2 ⟨x, o, rfl, ho, rfl⟩
        rw [← this]
        obtain ⟨s, a, b, d, e, rfl, _, _, _, _, _, _, ⟨rfl, _⟩ | ⟨rfl, _⟩⟩ := ho <;> rfl

theorem run_cons_iff {e p : List Char} {s : Std} {cs : List (List Char × Std)} {t t' : Time} {v : List Char} :
    run e ((p, s) :: cs) t v = some t' ↔
      ∃ w x r t1, skip v p = some w ∧ w = x ++ r ∧ Item (fracNext cs) t s x r t1 ∧ run e cs t1 r = some t' := by
  simp only [run]
  constructor
  · intro h
    split at h
    · rename_i w hw
      split at h
      · rename_i t1 r hi
        obtain ⟨x, rfl, hx⟩ := item_iff.1 hi
        exact ⟨_, x, r, t1, hw, rfl, hx, h⟩
      · cases h
    · cases h
  · rintro ⟨w, x, r, t1, hw, rfl, hx, h⟩
    simp only [hw, item_iff.2 ⟨x, rfl, hx⟩]
    exact h

theorem run_nil_iff {t t' : Time} {v : List Char} : run [] [] t v = some t' ↔ v = [] ∧ t' = t := by
  cases v with
  | nil => simp [run, skip, eq_comm]
  | cons c v => simp [run, skip]

theorem skip_nil_iff {v w : List Char} : skip v [] = some w ↔ v = w := by simp [skip]

theorem skip_char_iff {c : Char} {v w : List Char} (hc : c ≠ ' ') : skip v [c] = some w ↔ v = c :: w := by
  cases v with
  | nil => simp [skip, hc]
  | cons d v => simp [skip, hc]

theorem skip_space_iff {v w : List Char} :
    skip v [' '] = some w ↔ (v = [] ∧ w = []) ∨ ∃ v', v = ' ' :: v' ∧ w = v'.dropWhile (· = ' ') := by
  cases v with
  | nil => simp [skip, eq_comm]
  | cons d v =>
    simp only [skip, if_true]
    by_cases hd : d = ' '
    · simp [hd, skip, eq_comm]
    · simp [hd]

open Yaml (Dig value Digits Short nanos Signed lastDay)

theorem dig_iff {c : Char} : Dig c ↔ digit c = true := by simp [Dig, digit]

theorem number_value (ds : List Char) : number ds = value ds := by
  have : ∀ (ds : List Char) (n : Nat),
      ds.foldl (fun n c => n * 10 + digitVal c) n = n * 10 ^ ds.length + value ds := by
    intro ds
    induction ds with
    | nil => intro n; simp [value]
    | cons c ds ih =>
      intro n
      have hc : digitVal c = c.toNat - 48 := rfl
      simp only [List.foldl_cons, ih, value, List.length_cons, hc, Nat.add_mul, Nat.pow_succ]
      have : n * 10 * 10 ^ ds.length = n * (10 ^ ds.length * 10) := by
        rw [Nat.mul_assoc, Nat.mul_comm 10]
      omega
  simpa [number] using this ds 0

theorem value_lt {ds : List Char} (h : ∀ c ∈ ds, Dig c) : value ds < 10 ^ ds.length := by
  induction ds with
  | nil => simp [value]
  | cons c ds ih =>
    have h1 := ih (fun d hd => h d (by simp [hd]))
    have hc : c.toNat - 48 ≤ 9 := by
      have h2 : c.toNat ≤ 57 := (h c (by simp)).2
      omega
    have : (c.toNat - 48) * 10 ^ ds.length ≤ 9 * 10 ^ ds.length := Nat.mul_le_mul_right _ hc
    simp only [value, List.length_cons, Nat.pow_succ]
    omega

theorem value_append (a b : List Char) : value (a ++ b) = value a * 10 ^ b.length + value b := by
  induction a with
  | nil => simp [value]
  | cons c a ih =>
    simp only [List.cons_append, value, ih, List.length_append, Nat.pow_add, Nat.add_mul, Nat.mul_assoc, Nat.add_assoc]

theorem nanoseconds_nanos {ds : List Char} (h : ∀ c ∈ ds, Dig c) : nanoseconds ds = nanos ds := by
  simp only [nanoseconds, nanos, number_value]
  by_cases hl : ds.length ≤ 9
  · rw [List.take_of_length_le hl]
    have : 10 ^ 9 = 10 ^ (9 - ds.length) * 10 ^ ds.length := by
      rw [← Nat.pow_add]; congr 1; omega
    rw [this, ← Nat.mul_assoc, Nat.mul_div_cancel _ (Nat.pow_pos (by decide))]
  · have hl' : (ds.take 9).length = 9 := by rw [List.length_take]; omega
    have hs : value ds = value (ds.take 9) * 10 ^ (ds.drop 9).length + value (ds.drop 9) := by
      rw [← value_append, List.take_append_drop]
    have hlt := value_lt (ds := ds.drop 9) (fun c hc => h c (List.mem_of_mem_drop hc))
    have hp : 10 ^ ds.length = 10 ^ (ds.drop 9).length * 10 ^ 9 := by
      rw [← Nat.pow_add]; congr 1; rw [List.length_drop]; omega
    rw [hl', hp, hs, Nat.mul_div_mul_right _ _ (Nat.pow_pos (by decide))]
    rw [Nat.mul_comm, Nat.add_comm, Nat.add_mul_div_right _ _ (Nat.pow_pos (by decide)), Nat.div_eq_of_lt hlt]
    simp

theorem digits_two {x : List Char} {n : Nat} :
    Digits 2 x n ↔ ∃ a b, x = [a, b] ∧ digit a = true ∧ digit b = true ∧ n = digitVal a * 10 + digitVal b := by
  constructor
  · rintro ⟨hl, hd, rfl⟩
    match x, hl, hd with
    | [a, b], _, hd =>
      exact ⟨a, b, rfl, dig_iff.1 (hd a (by simp)), dig_iff.1 (hd b (by simp)), by simp [value, digitVal]⟩
  · rintro ⟨a, b, rfl, ha, hb, rfl⟩
    refine ⟨rfl, ?_, by simp [value, digitVal]⟩
    simp [dig_iff, ha, hb]

theorem digits_one {x : List Char} {n : Nat} : Digits 1 x n ↔ ∃ a, x = [a] ∧ digit a = true ∧ n = digitVal a := by
  constructor
  · rintro ⟨hl, hd, rfl⟩
    match x, hl, hd with
    | [a], _, hd => exact ⟨a, rfl, dig_iff.1 (hd a (by simp)), by simp [value, digitVal]⟩
  · rintro ⟨a, rfl, ha, rfl⟩
    refine ⟨rfl, ?_, by simp [value, digitVal]⟩
    simp [dig_iff, ha]

theorem digits_four {x : List Char} {n : Nat} :
    Digits 4 x n ↔ ∃ a b c d, x = [a, b, c, d] ∧ digit a = true ∧ digit b = true ∧ digit c = true ∧ digit d = true ∧
      n = number [a, b, c, d] := by
  constructor
  · rintro ⟨hl, hd, rfl⟩
    match x, hl, hd with
    | [a, b, c, d], _, hd =>
      exact ⟨a, b, c, d, rfl, dig_iff.1 (hd a (by simp)), dig_iff.1 (hd b (by simp)), dig_iff.1 (hd c (by simp)),
        dig_iff.1 (hd d (by simp)), (number_value _).symm⟩
  · rintro ⟨a, b, c, d, rfl, ha, hb, hc, hd, rfl⟩
    refine ⟨rfl, ?_, number_value _⟩
    simp [dig_iff, ha, hb, hc, hd]

theorem num_true {x r : List Char} {n : Nat} : Num true x r n ↔ Digits 2 x n := by
  rw [digits_two]; simp [Num]

theorem num_sound {f : Bool} {x r : List Char} {n : Nat} (h : Num f x r n) : Short x n := by
  rcases h with h | ⟨_, a, h1, h2, h3, _⟩
  · exact .inr (digits_two.2 h)
  · exact .inl (digits_one.2 ⟨a, h1, h2, h3⟩)

theorem num_complete {x r : List Char} {n : Nat} (h : Short x n) (hr : NoDig r) : Num false x r n := by
  rcases h with h | h
  · obtain ⟨a, h1, h2, h3⟩ := digits_one.1 h
    exact .inr ⟨rfl, a, h1, h2, h3, hr⟩
  · exact .inl (digits_two.1 h)

theorem daysIn_lastDay (m : Nat) (y : Int) : daysIn m y = lastDay y m := by
  unfold lastDay
  split
  · simp only [daysIn, if_true, isLeap]
    by_cases h1 : y % 4 = 0 <;> by_cases h2 : y % 100 = 0 <;> by_cases h3 : y % 400 = 0 <;> simp [h1, h2, h3] <;> omega
  · rfl
  · rfl
  · rfl
  · rfl
  · rename_i h2 h4 h6 h9 h11
    have : ¬ (m = 4 ∨ m = 6 ∨ m = 9 ∨ m = 11) := by
      rintro (h | h | h | h)
      · exact h4 h
      · exact h6 h
      · exact h9 h
      · exact h11 h
    have h2' : ¬ m = 2 := fun h => h2 h
    simp [daysIn, this, h2']

/-- What `run` reads with a layout ends in an existing date. -/
theorem parse_iff {l v : List Char} {cs : List (List Char × Std)} {t : Time} (h : chunks l.length l = (cs, [])) :
    parse l v = some t ↔ run [] cs start v = some t ∧ 1 ≤ t.day ∧ t.day ≤ lastDay t.year t.month := by
  simp only [parse, h, ← daysIn_lastDay]
  constructor
  · intro hp
    split at hp
    · rename_i t' hr
      split at hp
      · rename_i hd; cases hp; exact ⟨hr, hd⟩
      · cases hp
    · cases hp
  · rintro ⟨hr, hd⟩
    simp only [hr, hd, and_self, if_true]

end Verif.Timestamp
