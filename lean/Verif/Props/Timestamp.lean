import Verif.Lemmas.Timestamp
import Verif.Model.Schema

/-!
C74: conversion of timestamps, engines/pkg/schema/schema.go:156-191.
-/

set_option linter.unusedSimpArgs false
set_option linter.unusedVariables false

namespace Verif.Props.Timestamp

open Verif.Timestamp Verif.Timestamp.Yaml

/-! ### The texts which are accepted -/

/-- A fraction of a second as it is accepted: with a comma too, and with a digit at least. -/
def Frac (s : Text) (n : Nat) : Prop :=
  (s = [] ∧ n = 0) ∨ ∃ c ds, s = c :: ds ∧ (c = '.' ∨ c = ',') ∧ ds ≠ [] ∧ (∀ d ∈ ds, Dig d) ∧ n = nanos ds

/-- An offset as it is accepted: two digits for hours and minutes each. -/
def Offset (s : Text) (o : Int) : Prop :=
  ∃ c hh mm h m, s = c :: (hh ++ ':' :: mm) ∧ Digits 2 hh h ∧ Digits 2 mm m ∧ h ≤ 24 ∧ m ≤ 60 ∧
    Signed c (h * 3600 + m * 60) o

/-- A clock as it is accepted. -/
def Clock (s : Text) (h m se n : Nat) : Prop :=
  ∃ hh mi ss fr, s = hh ++ ':' :: (mi ++ ':' :: (ss ++ fr)) ∧ Short hh h ∧ Short mi m ∧ Short ss se ∧ Frac fr n

/-- What may follow a date read with one of the last three layouts. -/
def Tail (s : Text) (t : Time) : Prop :=
  (s = [] ∧ t.hour = 0 ∧ t.minute = 0 ∧ t.second = 0 ∧ t.nsec = 0 ∧ t.offset = 0) ∨
    (∃ c z, s = 't' :: (c ++ z) ∧ Clock c t.hour t.minute t.second t.nsec ∧ Offset z t.offset) ∨
    (∃ n c, s = List.replicate (n + 1) ' ' ++ c ∧ Clock c t.hour t.minute t.second t.nsec ∧ t.offset = 0)

/-- The texts which are accepted, with the times which they are converted to. -/
inductive Taken : Text → Time → Prop
  | date {y m d : Text} {t : Time} {yy : Nat} (hy : Digits 4 y yy) (hyy : t.year = yy) (hm : Digits 2 m t.month)
      (hd : Digits 2 d t.day) (h0 : t.hour = 0 ∧ t.minute = 0 ∧ t.second = 0 ∧ t.nsec = 0 ∧ t.offset = 0)
      (hv : Valid t) : Taken (y ++ '-' :: (m ++ '-' :: d)) t
  | full {y m d c z : Text} {t : Time} {yy : Nat} (hy : Digits 4 y yy) (hyy : t.year = yy) (hm : Short m t.month)
      (hd : Short d t.day) (hc : Clock c t.hour t.minute t.second t.nsec)
      (hz : (z = ['Z'] ∧ t.offset = 0) ∨ Offset z t.offset) (hv : Valid t) :
      Taken (y ++ '-' :: (m ++ '-' :: (d ++ 'T' :: (c ++ z)))) t
  /-- the layouts with `2001` in the place of the year: two digits of a day, a zero, two digits of a month; both are
  forgotten for the month and the day which follow, and the year is 0 -/
  | odd {dd mm m d r : Text} {t : Time} {k l : Nat} (hdd : Digits 2 dd k) (hmm : Digits 2 mm l) (hl : 1 ≤ l ∧ l ≤ 12)
      (hy : t.year = 0) (hm : Short m t.month) (hd : Short d t.day) (hr : Tail r t) (hv : Valid t) :
      Taken (dd ++ '0' :: (mm ++ '-' :: (m ++ '-' :: (d ++ r)))) t

theorem frac_of {x r : Text} {n : Nat} (h : OptFr x r 0 n) : Frac x n := by
  rcases h with ⟨rfl, rfl, _⟩ | ⟨c, ds, rfl, hne, hc, hds, rfl, _⟩
  · exact .inl ⟨rfl, rfl⟩
  · have hds' : ∀ d ∈ ds, Dig d := fun d hd => dig_iff.2 (hds d hd)
    exact .inr ⟨c, ds, rfl, by simpa [commaOrPeriod] using hc, hne, hds', nanoseconds_nanos hds'⟩

theorem frac_to {x r : Text} {n : Nat} (h : Frac x n) (h1 : NoDig r) (h2 : NoFr r) : OptFr x r 0 n := by
  rcases h with ⟨rfl, rfl⟩ | ⟨c, ds, rfl, hc, hne, hds, rfl⟩
  · exact .inl ⟨rfl, rfl, h2⟩
  · exact .inr ⟨c, ds, rfl, hne, by simpa [commaOrPeriod] using hc, fun d hd => dig_iff.1 (hds d hd),
      (nanoseconds_nanos hds).symm, h1⟩

theorem offset_iff {x : Text} {o : Int} : Zn x o ↔ Offset x o := by
  constructor
  · rintro ⟨s, a, b, d, e, rfl, ha, hb, hd, he, h1, h2, h3⟩
    refine ⟨s, [a, b], [d, e], _, _, rfl, digits_two.2 ⟨a, b, rfl, ha, hb, rfl⟩, digits_two.2 ⟨d, e, rfl, hd, he, rfl⟩,
      h1, h2, ?_⟩
    rcases h3 with ⟨rfl, rfl⟩ | ⟨rfl, rfl⟩
    · exact .inl ⟨rfl, by omega⟩
    · exact .inr ⟨rfl, by omega⟩
  · rintro ⟨s, hh, mm, h, m, rfl, h1, h2, h3, h4, h5⟩
    obtain ⟨a, b, rfl, ha, hb, rfl⟩ := digits_two.1 h1
    obtain ⟨d, e, rfl, hd, he, rfl⟩ := digits_two.1 h2
    refine ⟨s, a, b, d, e, rfl, ha, hb, hd, he, h3, h4, ?_⟩
    rcases h5 with ⟨rfl, rfl⟩ | ⟨rfl, rfl⟩
    · exact .inl ⟨rfl, by omega⟩
    · exact .inr ⟨rfl, by omega⟩

theorem skip_colon {v w : Text} : skip v [':'] = some w ↔ v = ':' :: w := skip_char_iff (by decide)
theorem skip_dash {v w : Text} : skip v ['-'] = some w ↔ v = '-' :: w := skip_char_iff (by decide)
theorem skip_T {v w : Text} : skip v ['T'] = some w ↔ v = 'T' :: w := skip_char_iff (by decide)
theorem skip_t {v w : Text} : skip v ['t'] = some w ↔ v = 't' :: w := skip_char_iff (by decide)
theorem skip_zero {v w : Text} : skip v ['0'] = some w ↔ v = '0' :: w := skip_char_iff (by decide)

/-- The clock of the layouts with short numbers. -/
theorem clock_of {p : Text} {cs : List (Text × Std)} {t t' : Time} {v : Text} (hn : t.nsec = 0)
    (h : run [] ((p, .hour) :: ([':'], .minute) :: ([':'], .second) :: ([], .frac9) :: cs) t v = some t') :
    ∃ c r a b e n, skip v p = some (c ++ r) ∧ Clock c a b e n ∧ a < 24 ∧ b < 60 ∧ e < 60 ∧
      run [] cs { t with hour := a, minute := b, second := e, nsec := n } r = some t' := by
  simp only [run_cons_iff, skip_nil_iff, skip_colon, Item, fracNext, if_true] at h
  obtain ⟨_, x, _, _, hp, rfl, ⟨a, ha, ha', rfl⟩, _, y, _, _, rfl, rfl, ⟨b, hb, hb', rfl⟩, _, z, _, _, rfl, rfl,
    ⟨e, z1, z2, m, rfl, he, he', ⟨rfl, rfl⟩, rfl⟩, _, f, r, _, rfl, rfl, ⟨n, hf, rfl⟩, hr⟩ := h
  simp only [hn] at hf
  refine ⟨x ++ ':' :: (y ++ ':' :: (z1 ++ f)), r, a, b, e, n, ?_,
    ⟨x, y, z1, f, rfl, num_sound ha, num_sound hb, num_sound he, frac_of hf⟩, ha', hb', he', hr⟩
  simpa using hp

/-- The clock of `time.RFC3339Nano`. -/
theorem clock_of_nano {p : Text} {cs : List (Text × Std)} {t t' : Time} {v : Text} (hn : t.nsec = 0)
    (h : run [] ((p, .hour) :: ([':'], .zeroMinute) :: ([':'], .zeroSecond) :: ([], .frac9) :: cs) t v = some t') :
    ∃ c r a b e n, skip v p = some (c ++ r) ∧ Clock c a b e n ∧ a < 24 ∧ b < 60 ∧ e < 60 ∧
      run [] cs { t with hour := a, minute := b, second := e, nsec := n } r = some t' := by
  simp only [run_cons_iff, skip_nil_iff, skip_colon, Item, fracNext, if_true] at h
  obtain ⟨_, x, _, _, hp, rfl, ⟨a, ha, ha', rfl⟩, _, y, _, _, rfl, rfl, ⟨b, hb, hb', rfl⟩, _, z, _, _, rfl, rfl,
    ⟨e, z1, z2, m, rfl, he, he', ⟨rfl, rfl⟩, rfl⟩, _, f, r, _, rfl, rfl, ⟨n, hf, rfl⟩, hr⟩ := h
  simp only [hn] at hf
  refine ⟨x ++ ':' :: (y ++ ':' :: (z1 ++ f)), r, a, b, e, n, ?_,
    ⟨x, y, z1, f, rfl, num_sound ha, num_sound hb, num_sound he, frac_of hf⟩, ha', hb', he', hr⟩
  simpa using hp

/-- The clock of `time.RFC3339`: a fraction is read although the layout has none. -/
theorem clock_of_fixed {p q : Text} {s : Std} {cs : List (Text × Std)} {t t' : Time} {v : Text} (hn : t.nsec = 0)
    (hs : s ≠ .frac9)
    (h : run [] ((p, .hour) :: ([':'], .zeroMinute) :: ([':'], .zeroSecond) :: (q, s) :: cs) t v = some t') :
    ∃ c r a b e n, skip v p = some (c ++ r) ∧ Clock c a b e n ∧ a < 24 ∧ b < 60 ∧ e < 60 ∧
      run [] ((q, s) :: cs) { t with hour := a, minute := b, second := e, nsec := n } r = some t' := by
  have hf : fracNext ((q, s) :: cs) = false := by
    cases s <;> first | rfl | exact absurd rfl hs
  rw [run_cons_iff] at h
  obtain ⟨_, x, _, _, hp, rfl, ⟨a, ha, ha', rfl⟩, h⟩ := h
  rw [run_cons_iff] at h
  obtain ⟨_, y, _, _, h1, rfl, ⟨b, hb, hb', rfl⟩, h⟩ := h
  rw [run_cons_iff] at h
  obtain ⟨_, z, r, _, h2, rfl, hi, h⟩ := h
  simp only [Item, hf, Bool.false_eq_true, if_false] at hi
  obtain ⟨e, z1, z2, m, rfl, he, he', hz, rfl⟩ := hi
  simp only [skip_colon] at h1 h2
  subst h1 h2
  simp only [hn] at hz
  refine ⟨x ++ ':' :: (y ++ ':' :: (z1 ++ z2)), r, a, b, e, m, ?_,
    ⟨x, y, z1, z2, rfl, num_sound ha, num_sound hb, num_sound he, frac_of hz⟩, ha', hb', he', h⟩
  simpa using hp

theorem noDig_colon {r : Text} : NoDig (':' :: r) := noDig_cons (by decide)
theorem noDig_dash {r : Text} : NoDig ('-' :: r) := noDig_cons (by decide)

theorem noDig_frac {f r : Text} {n : Nat} (h : Frac f n) (hr : NoDig r) : NoDig (f ++ r) := by
  rcases h with ⟨rfl, _⟩ | ⟨c, ds, rfl, hc, _⟩
  · exact hr
  · exact noDig_cons (by rcases hc with rfl | rfl <;> decide)

theorem clock_to {p : Text} {cs : List (Text × Std)} {t t' : Time} {v c r : Text} {a b e n : Nat} (hn : t.nsec = 0)
    (hp : skip v p = some (c ++ r)) (hc : Clock c a b e n) (ha : a < 24) (hb : b < 60) (he : e < 60)
    (h1 : NoDig r) (h2 : NoFr r)
    (h : run [] cs { t with hour := a, minute := b, second := e, nsec := n } r = some t') :
    run [] ((p, .hour) :: ([':'], .minute) :: ([':'], .second) :: ([], .frac9) :: cs) t v = some t' := by
  obtain ⟨hh, mi, ss, fr, rfl, hhh, hmi, hss, hfr⟩ := hc
  simp only [run_cons_iff, skip_nil_iff, skip_colon, Item, fracNext, if_true]
  refine ⟨_, hh, _, _, hp, by simp only [List.append_assoc, List.cons_append], ⟨a, num_complete hhh noDig_colon, ha, rfl⟩, _, mi, _, _, rfl, rfl,
    ⟨b, num_complete hmi noDig_colon, hb, rfl⟩, _, ss, _, _, rfl, rfl,
    ⟨e, ss, [], _, by simp, num_complete hss (by simpa using noDig_frac hfr h1), he, ⟨rfl, rfl⟩, rfl⟩,
    _, fr, r, _, rfl, rfl, ⟨n, ?_, rfl⟩, h⟩
  simpa only [hn] using frac_to hfr h1 h2

/-! ### The seven layouts -/

theorem layout1 : chunks "2006-01-02T15:04:05Z07:00".toList.length "2006-01-02T15:04:05Z07:00".toList =
    ([([], .longYear), (['-'], .zeroMonth), (['-'], .zeroDay), (['T'], .hour), ([':'], .zeroMinute),
      ([':'], .zeroSecond), ([], .isoColonTZ)], []) := by decide +kernel

theorem layout2 : chunks "2006-01-02T15:04:05.999999999Z07:00".toList.length
      "2006-01-02T15:04:05.999999999Z07:00".toList =
    ([([], .longYear), (['-'], .zeroMonth), (['-'], .zeroDay), (['T'], .hour), ([':'], .zeroMinute),
      ([':'], .zeroSecond), ([], .frac9), ([], .isoColonTZ)], []) := by decide +kernel

theorem layout3 : chunks "2006-01-02".toList.length "2006-01-02".toList =
    ([([], .longYear), (['-'], .zeroMonth), (['-'], .zeroDay)], []) := by decide +kernel

theorem layout4 : chunks "2006-1-2T15:4:5.999999999Z07:00".toList.length "2006-1-2T15:4:5.999999999Z07:00".toList =
    ([([], .longYear), (['-'], .numMonth), (['-'], .day), (['T'], .hour), ([':'], .minute),
      ([':'], .second), ([], .frac9), ([], .isoColonTZ)], []) := by decide +kernel

theorem layout5 : chunks "2001-1-2t15:4:5.999999999-07:00".toList.length "2001-1-2t15:4:5.999999999-07:00".toList =
    ([([], .day), (['0'], .zeroMonth), (['-'], .numMonth), (['-'], .day), (['t'], .hour), ([':'], .minute),
      ([':'], .second), ([], .frac9), ([], .numColonTZ)], []) := by decide +kernel

theorem layout6 : chunks "2001-1-2 15:4:5.999999999".toList.length "2001-1-2 15:4:5.999999999".toList =
    ([([], .day), (['0'], .zeroMonth), (['-'], .numMonth), (['-'], .day), ([' '], .hour), ([':'], .minute),
      ([':'], .second), ([], .frac9)], []) := by decide +kernel

theorem layout7 : chunks "2001-1-2".toList.length "2001-1-2".toList =
    ([([], .day), (['0'], .zeroMonth), (['-'], .numMonth), (['-'], .day)], []) := by decide +kernel

/-- The date of the first three layouts. -/
theorem date_of {cs : List (Text × Std)} {t' : Time} {v : Text}
    (h : run [] (([], .longYear) :: (['-'], .zeroMonth) :: (['-'], .zeroDay) :: cs) start v = some t') :
    ∃ y m d r k a b, v = y ++ '-' :: (m ++ '-' :: (d ++ r)) ∧ Digits 4 y k ∧ Digits 2 m a ∧ 1 ≤ a ∧ a ≤ 12 ∧
      Digits 2 d b ∧ run [] cs { start with year := k, month := a, day := b } r = some t' := by
  simp only [run_cons_iff, skip_nil_iff, skip_dash, Item] at h
  obtain ⟨_, y, _, _, rfl, rfl, ⟨y1, y2, y3, y4, rfl, d1, d2, d3, d4, rfl⟩, _, m, _, _, rfl, rfl,
    ⟨a, ha, ha', ha'', rfl⟩, _, d, r, _, rfl, rfl, ⟨b, hb, rfl⟩, h⟩ := h
  exact ⟨_, m, d, r, _, a, b, rfl, digits_four.2 ⟨y1, y2, y3, y4, rfl, d1, d2, d3, d4, rfl⟩, num_true.1 ha, ha', ha'',
    num_true.1 hb, h⟩

/-- The date of the fourth layout. -/
theorem short_date_of {cs : List (Text × Std)} {t' : Time} {v : Text}
    (h : run [] (([], .longYear) :: (['-'], .numMonth) :: (['-'], .day) :: cs) start v = some t') :
    ∃ y m d r k a b, v = y ++ '-' :: (m ++ '-' :: (d ++ r)) ∧ Digits 4 y k ∧ Short m a ∧ 1 ≤ a ∧ a ≤ 12 ∧
      Short d b ∧ run [] cs { start with year := k, month := a, day := b } r = some t' := by
  simp only [run_cons_iff, skip_nil_iff, skip_dash, Item] at h
  obtain ⟨_, y, _, _, rfl, rfl, ⟨y1, y2, y3, y4, rfl, d1, d2, d3, d4, rfl⟩, _, m, _, _, rfl, rfl,
    ⟨a, ha, ha', ha'', rfl⟩, _, d, r, _, rfl, rfl, ⟨b, hb, rfl⟩, h⟩ := h
  exact ⟨_, m, d, r, _, a, b, rfl, digits_four.2 ⟨y1, y2, y3, y4, rfl, d1, d2, d3, d4, rfl⟩, num_sound ha, ha', ha'',
    num_sound hb, h⟩

theorem short_date_to {cs : List (Text × Std)} {t' : Time} {y m d r : Text} {k a b : Nat} (hy : Digits 4 y k)
    (hm : Short m a) (ha : 1 ≤ a ∧ a ≤ 12) (hd : Short d b) (hr : NoDig r)
    (h : run [] cs { start with year := k, month := a, day := b } r = some t') :
    run [] (([], .longYear) :: (['-'], .numMonth) :: (['-'], .day) :: cs) start (y ++ '-' :: (m ++ '-' :: (d ++ r))) =
      some t' := by
  obtain ⟨y1, y2, y3, y4, rfl, d1, d2, d3, d4, rfl⟩ := digits_four.1 hy
  simp only [run_cons_iff, skip_nil_iff, skip_dash, Item]
  exact ⟨_, _, _, _, rfl, rfl, ⟨y1, y2, y3, y4, rfl, d1, d2, d3, d4, rfl⟩, _, m, _, _, rfl, rfl,
    ⟨a, num_complete hm noDig_dash, ha.1, ha.2, rfl⟩, _, d, r, _, rfl, rfl, ⟨b, num_complete hd hr, rfl⟩, h⟩

/-- The date of the last three layouts. -/
theorem odd_date_of {cs : List (Text × Std)} {t' : Time} {v : Text}
    (h : run [] (([], .day) :: (['0'], .zeroMonth) :: (['-'], .numMonth) :: (['-'], .day) :: cs) start v = some t') :
    ∃ dd mm m d r k l a b, v = dd ++ '0' :: (mm ++ '-' :: (m ++ '-' :: (d ++ r))) ∧ Digits 2 dd k ∧ Digits 2 mm l ∧
      1 ≤ l ∧ l ≤ 12 ∧ Short m a ∧ 1 ≤ a ∧ a ≤ 12 ∧ Short d b ∧
      run [] cs { start with month := a, day := b } r = some t' := by
  simp only [run_cons_iff, skip_nil_iff, skip_dash, skip_zero, Item] at h
  obtain ⟨_, dd, _, _, rfl, rfl, ⟨k, hk, rfl⟩, _, mm, _, _, rfl, rfl, ⟨l, hl, hl', hl'', rfl⟩, _, m, _, _, rfl, rfl,
    ⟨a, ha, ha', ha'', rfl⟩, _, d, r, _, rfl, rfl, ⟨b, hb, rfl⟩, h⟩ := h
  have hk' : Digits 2 dd k := by
    rcases hk with hk | ⟨_, _, _, _, _, hn⟩
    · exact digits_two.2 hk
    · exact absurd (hn _ _ rfl) (by decide)
  exact ⟨dd, mm, m, d, r, k, l, a, b, rfl, hk', num_true.1 hl, hl', hl'', num_sound ha, ha', ha'', num_sound hb, h⟩

theorem odd_date_to {cs : List (Text × Std)} {t' : Time} {dd mm m d r : Text} {k l a b : Nat} (hdd : Digits 2 dd k)
    (hmm : Digits 2 mm l) (hl : 1 ≤ l ∧ l ≤ 12) (hm : Short m a) (ha : 1 ≤ a ∧ a ≤ 12) (hd : Short d b) (hr : NoDig r)
    (h : run [] cs { start with month := a, day := b } r = some t') :
    run [] (([], .day) :: (['0'], .zeroMonth) :: (['-'], .numMonth) :: (['-'], .day) :: cs) start
      (dd ++ '0' :: (mm ++ '-' :: (m ++ '-' :: (d ++ r)))) = some t' := by
  simp only [run_cons_iff, skip_nil_iff, skip_dash, skip_zero, Item]
  exact ⟨_, dd, _, _, rfl, rfl, ⟨k, .inl (digits_two.1 hdd), rfl⟩, _, mm, _, _, rfl, rfl,
    ⟨l, num_true.2 hmm, hl.1, hl.2, rfl⟩, _, m, _, _, rfl, rfl, ⟨a, num_complete hm noDig_dash, ha.1, ha.2, rfl⟩,
    _, d, r, _, rfl, rfl, ⟨b, num_complete hd hr, rfl⟩, h⟩

theorem iso_of {t t' : Time} {v : Text} (h : run [] [([], .isoColonTZ)] t v = some t') :
    ∃ o, ((v = ['Z'] ∧ o = 0) ∨ Offset v o) ∧ t' = { t with offset := o } := by
  simp only [run_cons_iff, skip_nil_iff, run_nil_iff, Item] at h
  obtain ⟨_, x, _, _, rfl, rfl, h, rfl, rfl⟩ := h
  rcases h with ⟨rfl, rfl⟩ | ⟨o, ho, rfl⟩
  · exact ⟨0, .inl ⟨rfl, rfl⟩, rfl⟩
  · exact ⟨o, .inr (by simpa using offset_iff.1 ho), rfl⟩

theorem iso_to {t : Time} {v : Text} {o : Int} (h : (v = ['Z'] ∧ o = 0) ∨ Offset v o) :
    run [] [([], .isoColonTZ)] t v = some { t with offset := o } := by
  simp only [run_cons_iff, skip_nil_iff, run_nil_iff, Item]
  refine ⟨v, v, [], _, rfl, by simp, ?_, rfl, rfl⟩
  rcases h with ⟨rfl, rfl⟩ | h
  · exact .inl ⟨rfl, rfl⟩
  · exact .inr ⟨o, offset_iff.2 h, rfl⟩

theorem num_of {t t' : Time} {v : Text} (h : run [] [([], .numColonTZ)] t v = some t') :
    ∃ o, Offset v o ∧ t' = { t with offset := o } := by
  simp only [run_cons_iff, skip_nil_iff, run_nil_iff, Item] at h
  obtain ⟨_, x, _, _, rfl, rfl, ⟨o, ho, rfl⟩, rfl, rfl⟩ := h
  exact ⟨o, by simpa using offset_iff.1 ho, rfl⟩

theorem num_to {t : Time} {v : Text} {o : Int} (h : Offset v o) :
    run [] [([], .numColonTZ)] t v = some { t with offset := o } := by
  simp only [run_cons_iff, skip_nil_iff, run_nil_iff, Item]
  exact ⟨v, v, [], _, rfl, by simp, ⟨o, offset_iff.2 h, rfl⟩, rfl, rfl⟩

/-- The rest after a clock begins with neither a digit nor a fraction. -/
theorem offset_stop {z : Text} {o : Int} (h : Offset z o) : NoDig z ∧ NoFr z := by
  obtain ⟨c, hh, mm, h, m, rfl, _, _, _, _, ⟨rfl, _⟩ | ⟨rfl, _⟩⟩ := h
  · exact ⟨noDig_cons (by decide), noFr_cons (by decide)⟩
  · exact ⟨noDig_cons (by decide), noFr_cons (by decide)⟩

theorem iso_stop {z : Text} {o : Int} (h : (z = ['Z'] ∧ o = 0) ∨ Offset z o) : NoDig z ∧ NoFr z := by
  rcases h with ⟨rfl, _⟩ | h
  · exact ⟨noDig_cons (by decide), noFr_cons (by decide)⟩
  · exact offset_stop h

/-! ### Soundness of the layouts -/

theorem full_of {y m d c z v r : Text} {k a b h mi se n : Nat} {o : Int}
    (hv : v = y ++ '-' :: (m ++ '-' :: (d ++ r))) (hr : r = 'T' :: (c ++ z)) (hy : Digits 4 y k) (hm : Short m a)
    (ha : 1 ≤ a) (ha' : a ≤ 12) (hd : Short d b) (hc : Clock c h mi se n) (hh : h < 24) (hmi : mi < 60) (hs : se < 60)
    (hz : (z = ['Z'] ∧ o = 0) ∨ Offset z o) (hb : 1 ≤ b) (hb' : b ≤ lastDay k a) :
    Taken v ⟨k, a, b, h, mi, se, n, o⟩ := by
  subst hv hr
  exact .full hy rfl hm hd hc hz ⟨ha, ha', hb, hb', hh, hmi, hs⟩

theorem takeWhile_spaces (v : Text) : ∀ x ∈ v.takeWhile (· = ' '), x = ' ' := by
  induction v with
  | nil => simp
  | cons c v ih =>
    rw [List.takeWhile_cons]
    split
    · rename_i h
      intro x hx
      rcases List.mem_cons.1 hx with rfl | hx
      · simpa using h
      · exact ih x hx
    · simp

theorem sound {l s : Text} {t : Time} (hl : l ∈ timestampLayouts) (h : parse l s = some t) : Taken s t := by
  simp only [timestampLayouts, List.mem_cons, List.not_mem_nil, or_false] at hl
  rcases hl with rfl | rfl | rfl | rfl | rfl | rfl | rfl
  · obtain ⟨h, hb, hb'⟩ := (parse_iff layout1).1 h
    obtain ⟨y, m, d, r, k, a, b, rfl, hy, hm, ha, ha', hd, h⟩ := date_of h
    obtain ⟨c, z, hh, mi, se, n, hp, hc, h1, h2, h3, h⟩ := clock_of_fixed rfl (by decide) h
    obtain ⟨o, ho, rfl⟩ := iso_of h
    exact full_of rfl (skip_T.1 hp) hy (.inr hm) ha ha' (.inr hd) hc h1 h2 h3 ho hb hb'
  · obtain ⟨h, hb, hb'⟩ := (parse_iff layout2).1 h
    obtain ⟨y, m, d, r, k, a, b, rfl, hy, hm, ha, ha', hd, h⟩ := date_of h
    obtain ⟨c, z, hh, mi, se, n, hp, hc, h1, h2, h3, h⟩ := clock_of_nano rfl h
    obtain ⟨o, ho, rfl⟩ := iso_of h
    exact full_of rfl (skip_T.1 hp) hy (.inr hm) ha ha' (.inr hd) hc h1 h2 h3 ho hb hb'
  · obtain ⟨h, hb, hb'⟩ := (parse_iff layout3).1 h
    obtain ⟨y, m, d, r, k, a, b, rfl, hy, hm, ha, ha', hd, h⟩ := date_of h
    obtain ⟨rfl, rfl⟩ := run_nil_iff.1 h
    rw [List.append_nil]
    exact .date hy rfl hm hd ⟨rfl, rfl, rfl, rfl, rfl⟩ ⟨ha, ha', hb, hb', (by decide : 0 < 24), (by decide : 0 < 60), (by decide : 0 < 60)⟩
  · obtain ⟨h, hb, hb'⟩ := (parse_iff layout4).1 h
    obtain ⟨y, m, d, r, k, a, b, rfl, hy, hm, ha, ha', hd, h⟩ := short_date_of h
    obtain ⟨c, z, hh, mi, se, n, hp, hc, h1, h2, h3, h⟩ := clock_of rfl h
    obtain ⟨o, ho, rfl⟩ := iso_of h
    exact full_of rfl (skip_T.1 hp) hy hm ha ha' hd hc h1 h2 h3 ho hb hb'
  · obtain ⟨h, hb, hb'⟩ := (parse_iff layout5).1 h
    obtain ⟨dd, mm, m, d, r, k, l, a, b, rfl, hdd, hmm, hl, hl', hm, ha, ha', hd, h⟩ := odd_date_of h
    obtain ⟨c, z, hh, mi, se, n, hp, hc, h1, h2, h3, h⟩ := clock_of rfl h
    obtain ⟨o, ho, rfl⟩ := num_of h
    have := skip_t.1 hp
    subst this
    exact .odd hdd hmm ⟨hl, hl'⟩ rfl hm hd (.inr (.inl ⟨c, z, rfl, hc, ho⟩)) ⟨ha, ha', hb, hb', h1, h2, h3⟩
  · obtain ⟨h, hb, hb'⟩ := (parse_iff layout6).1 h
    obtain ⟨dd, mm, m, d, r, k, l, a, b, rfl, hdd, hmm, hl, hl', hm, ha, ha', hd, h⟩ := odd_date_of h
    obtain ⟨c, z, hh, mi, se, n, hp, hc, h1, h2, h3, h⟩ := clock_of rfl h
    obtain ⟨rfl, rfl⟩ := run_nil_iff.1 h
    rw [List.append_nil] at hp
    rcases skip_space_iff.1 hp with ⟨_, rfl⟩ | ⟨v', rfl, hc'⟩
    · obtain ⟨_, _, _, _, hx, _⟩ := hc
      exact absurd (congrArg List.length hx) (by simp)
    · refine .odd hdd hmm ⟨hl, hl'⟩ rfl hm hd (.inr (.inr ⟨(v'.takeWhile (· = ' ')).length, c, ?_, hc, rfl⟩))
        ⟨ha, ha', hb, hb', h1, h2, h3⟩
      have hrep : v'.takeWhile (· = ' ') = List.replicate (v'.takeWhile (· = ' ')).length ' ' := by
        refine List.eq_replicate_of_mem ?_
        intro x hx
        exact takeWhile_spaces v' x hx
      rw [List.replicate_succ, List.cons_append, ← hrep, hc', List.takeWhile_append_dropWhile]
  · obtain ⟨h, hb, hb'⟩ := (parse_iff layout7).1 h
    obtain ⟨dd, mm, m, d, r, k, l, a, b, rfl, hdd, hmm, hl, hl', hm, ha, ha', hd, h⟩ := odd_date_of h
    obtain ⟨rfl, rfl⟩ := run_nil_iff.1 h
    exact .odd hdd hmm ⟨hl, hl'⟩ rfl hm hd (.inl ⟨rfl, rfl, rfl, rfl, rfl, rfl⟩)
      ⟨ha, ha', hb, hb', (by decide : 0 < 24), (by decide : 0 < 60), (by decide : 0 < 60)⟩

/-! ### Completeness of the layouts -/

theorem complete_date {y m d : Text} {t : Time} {k : Nat} (hy : Digits 4 y k) (hyy : t.year = k)
    (hm : Digits 2 m t.month) (hd : Digits 2 d t.day)
    (h0 : t.hour = 0 ∧ t.minute = 0 ∧ t.second = 0 ∧ t.nsec = 0 ∧ t.offset = 0) (hv : Valid t) :
    parse "2006-01-02".toList (y ++ '-' :: (m ++ '-' :: d)) = some t := by
  obtain ⟨y', a, b, hh, mi, se, n, o⟩ := t
  simp only at hyy h0 hm hd
  obtain ⟨rfl, rfl, rfl, rfl, rfl⟩ := h0
  subst hyy
  refine (parse_iff layout3).2 ⟨?_, hv.2.2.1, hv.2.2.2.1⟩
  obtain ⟨y1, y2, y3, y4, rfl, d1, d2, d3, d4, rfl⟩ := digits_four.1 hy
  simp only [run_cons_iff, skip_nil_iff, skip_dash, run_nil_iff, Item]
  exact ⟨_, _, _, _, rfl, rfl, ⟨y1, y2, y3, y4, rfl, d1, d2, d3, d4, rfl⟩, _, m, _, _, rfl, rfl,
    ⟨a, num_true.2 hm, hv.1, hv.2.1, rfl⟩, _, d, [], _, rfl, by simp, ⟨b, num_true.2 hd, rfl⟩, rfl, rfl⟩

theorem complete_full {y m d c z : Text} {t : Time} {k : Nat} (hy : Digits 4 y k) (hyy : t.year = k)
    (hm : Short m t.month) (hd : Short d t.day) (hc : Clock c t.hour t.minute t.second t.nsec)
    (hz : (z = ['Z'] ∧ t.offset = 0) ∨ Offset z t.offset) (hv : Valid t) :
    parse "2006-1-2T15:4:5.999999999Z07:00".toList (y ++ '-' :: (m ++ '-' :: (d ++ 'T' :: (c ++ z)))) = some t := by
  obtain ⟨y', a, b, hh, mi, se, n, o⟩ := t
  simp only at hyy hm hd hc hz
  subst hyy
  obtain ⟨h1, h2, h3, h4, h5, h6, h7⟩ := hv
  refine (parse_iff layout4).2 ⟨?_, h3, h4⟩
  exact short_date_to hy hm ⟨h1, h2⟩ hd (noDig_cons (by decide))
    (clock_to rfl (skip_T.2 rfl) hc h5 h6 h7 (iso_stop hz).1 (iso_stop hz).2 (iso_to hz))

theorem complete_lower {dd mm m d c z : Text} {t : Time} {k l : Nat} (hdd : Digits 2 dd k) (hmm : Digits 2 mm l)
    (hl : 1 ≤ l ∧ l ≤ 12) (hy : t.year = 0) (hm : Short m t.month) (hd : Short d t.day)
    (hc : Clock c t.hour t.minute t.second t.nsec) (hz : Offset z t.offset) (hv : Valid t) :
    parse "2001-1-2t15:4:5.999999999-07:00".toList (dd ++ '0' :: (mm ++ '-' :: (m ++ '-' :: (d ++ 't' :: (c ++ z))))) =
      some t := by
  obtain ⟨y', a, b, hh, mi, se, n, o⟩ := t
  simp only at hy hm hd hc hz
  subst hy
  obtain ⟨h1, h2, h3, h4, h5, h6, h7⟩ := hv
  refine (parse_iff layout5).2 ⟨?_, h3, h4⟩
  exact odd_date_to hdd hmm hl hm ⟨h1, h2⟩ hd (noDig_cons (by decide))
    (clock_to rfl (skip_t.2 rfl) hc h5 h6 h7 (offset_stop hz).1 (offset_stop hz).2 (num_to hz))

theorem dropWhile_space {c : Text} {h mi se n : Nat} (k : Nat) (hc : Clock c h mi se n) :
    (List.replicate k ' ' ++ c).dropWhile (· = ' ') = c := by
  induction k with
  | zero =>
    obtain ⟨hh, _, _, _, rfl, hs, _⟩ := hc
    have : ∃ x xs, hh = x :: xs ∧ digit x = true := by
      rcases hs with hs | hs
      · obtain ⟨a, rfl, ha, _⟩ := digits_one.1 hs; exact ⟨a, [], rfl, ha⟩
      · obtain ⟨a, b, rfl, ha, _⟩ := digits_two.1 hs; exact ⟨a, [b], rfl, ha⟩
    obtain ⟨x, xs, rfl, hx⟩ := this
    have hx' : ¬ x = ' ' := by rintro rfl; exact absurd hx (by decide)
    simp [List.dropWhile_cons, hx']
  | succ k ih => simpa [List.replicate_succ, List.dropWhile_cons] using ih

theorem complete_spaced {dd mm m d c : Text} {t : Time} {k l : Nat} (j : Nat) (hdd : Digits 2 dd k)
    (hmm : Digits 2 mm l) (hl : 1 ≤ l ∧ l ≤ 12) (hy : t.year = 0) (hm : Short m t.month) (hd : Short d t.day)
    (hc : Clock c t.hour t.minute t.second t.nsec) (hz : t.offset = 0) (hv : Valid t) :
    parse "2001-1-2 15:4:5.999999999".toList
      (dd ++ '0' :: (mm ++ '-' :: (m ++ '-' :: (d ++ (List.replicate (j + 1) ' ' ++ c))))) = some t := by
  obtain ⟨y', a, b, hh, mi, se, n, o⟩ := t
  simp only at hy hm hd hc hz
  subst hy hz
  obtain ⟨h1, h2, h3, h4, h5, h6, h7⟩ := hv
  refine (parse_iff layout6).2 ⟨?_, h3, h4⟩
  refine odd_date_to hdd hmm hl hm ⟨h1, h2⟩ hd (noDig_cons (by decide)) ?_
  refine clock_to rfl (r := []) (skip_space_iff.2 (.inr ⟨List.replicate j ' ' ++ c, ?_, ?_⟩)) hc h5 h6 h7 noDig_nil
    noFr_nil (run_nil_iff.2 ⟨rfl, rfl⟩)
  · rw [List.replicate_succ, List.cons_append]
  · rw [List.append_nil, dropWhile_space j hc]

theorem complete_odd {dd mm m d : Text} {t : Time} {k l : Nat} (hdd : Digits 2 dd k) (hmm : Digits 2 mm l)
    (hl : 1 ≤ l ∧ l ≤ 12) (hy : t.year = 0) (hm : Short m t.month) (hd : Short d t.day)
    (h0 : t.hour = 0 ∧ t.minute = 0 ∧ t.second = 0 ∧ t.nsec = 0 ∧ t.offset = 0) (hv : Valid t) :
    parse "2001-1-2".toList (dd ++ '0' :: (mm ++ '-' :: (m ++ '-' :: (d ++ [])))) = some t := by
  obtain ⟨y', a, b, hh, mi, se, n, o⟩ := t
  simp only at hy hm hd h0
  obtain ⟨rfl, rfl, rfl, rfl, rfl⟩ := h0
  subst hy
  obtain ⟨h1, h2, h3, h4, h5, h6, h7⟩ := hv
  refine (parse_iff layout7).2 ⟨?_, h3, h4⟩
  exact odd_date_to hdd hmm hl hm ⟨h1, h2⟩ hd noDig_nil (run_nil_iff.2 ⟨rfl, rfl⟩)

/-! ### No text is taken in two ways -/

theorem short_chars {x : Text} {n : Nat} (h : Short x n) : ∀ c ∈ x, Dig c := by
  rcases h with h | h <;> exact h.2.1

theorem clock_chars {c : Text} {h m se n : Nat} (hc : Clock c h m se n) :
    ∀ x ∈ c, Dig x ∨ x = ':' ∨ x = '.' ∨ x = ',' := by
  obtain ⟨hh, mi, ss, fr, rfl, h1, h2, h3, h4⟩ := hc
  intro x hx
  simp only [List.mem_append, List.mem_cons] at hx
  rcases hx with hx | rfl | hx | rfl | hx | hx
  · exact .inl (short_chars h1 x hx)
  · simp
  · exact .inl (short_chars h2 x hx)
  · simp
  · exact .inl (short_chars h3 x hx)
  · rcases h4 with ⟨rfl, _⟩ | ⟨c, ds, rfl, hc, _, hds, _⟩
    · cases hx
    · rcases List.mem_cons.1 hx with rfl | hx
      · rcases hc with rfl | rfl <;> simp
      · exact .inl (hds x hx)

theorem not_dig {c : Char} (h : digit c = false) : ¬ Dig c := by rw [dig_iff, h]; simp

/-- Which of the five kinds a text is of: dates, full texts, and the three kinds of the last layouts. -/
def Kind (s : Text) (i : Nat) : Prop :=
  match i with
  | 0 => s[4]? = some '-' ∧ 'T' ∉ s
  | 1 => s[4]? = some '-' ∧ 'T' ∈ s
  | 2 => s[4]? ≠ some '-' ∧ 't' ∈ s
  | 3 => s[4]? ≠ some '-' ∧ 't' ∉ s ∧ ' ' ∈ s
  | _ => s[4]? ≠ some '-' ∧ 't' ∉ s ∧ ' ' ∉ s

theorem kind_unique {s : Text} {i j : Nat} (hi : Kind s i) (hj : Kind s j) (hi4 : i ≤ 4) (hj4 : j ≤ 4) : i = j := by
  match i, j, hi, hj, hi4, hj4 with
  | 0, 0, _, _, _, _ => rfl
  | 1, 1, _, _, _, _ => rfl
  | 2, 2, _, _, _, _ => rfl
  | 3, 3, _, _, _, _ => rfl
  | 4, 4, _, _, _, _ => rfl
  | 0, 1, h, h', _, _ => exact absurd h'.2 h.2
  | 0, 2, h, h', _, _ => exact absurd h.1 h'.1
  | 0, 3, h, h', _, _ => exact absurd h.1 h'.1
  | 0, 4, h, h', _, _ => exact absurd h.1 h'.1
  | 1, 0, h, h', _, _ => exact absurd h.2 h'.2
  | 1, 2, h, h', _, _ => exact absurd h.1 h'.1
  | 1, 3, h, h', _, _ => exact absurd h.1 h'.1
  | 1, 4, h, h', _, _ => exact absurd h.1 h'.1
  | 2, 0, h, h', _, _ => exact absurd h'.1 h.1
  | 2, 1, h, h', _, _ => exact absurd h'.1 h.1
  | 2, 3, h, h', _, _ => exact absurd h.2 h'.2.1
  | 2, 4, h, h', _, _ => exact absurd h.2 h'.2.1
  | 3, 0, h, h', _, _ => exact absurd h'.1 h.1
  | 3, 1, h, h', _, _ => exact absurd h'.1 h.1
  | 3, 2, h, h', _, _ => exact absurd h'.2 h.2.1
  | 3, 4, h, h', _, _ => exact absurd h.2.2 h'.2.2
  | 4, 0, h, h', _, _ => exact absurd h'.1 h.1
  | 4, 1, h, h', _, _ => exact absurd h'.1 h.1
  | 4, 2, h, h', _, _ => exact absurd h'.2 h.2.1
  | 4, 3, h, h', _, _ => exact absurd h'.2.2 h.2.2

/-- The layout which reads the texts of a kind. -/
def layoutOf : Nat → Text
  | 0 => "2006-01-02".toList
  | 1 => "2006-1-2T15:4:5.999999999Z07:00".toList
  | 2 => "2001-1-2t15:4:5.999999999-07:00".toList
  | 3 => "2001-1-2 15:4:5.999999999".toList
  | _ => "2001-1-2".toList

theorem four_at {y r : Text} {k : Nat} (hy : Digits 4 y k) : (y ++ '-' :: r)[4]? = some '-' := by
  obtain ⟨y1, y2, y3, y4, rfl, _⟩ := digits_four.1 hy
  rfl

theorem odd_at {dd mm r : Text} {k l : Nat} (hd : Digits 2 dd k) (hm : Digits 2 mm l) :
    (dd ++ '0' :: (mm ++ r))[4]? ≠ some '-' := by
  obtain ⟨a, b, rfl, _⟩ := digits_two.1 hd
  obtain ⟨c, d, rfl, _, hd, _⟩ := digits_two.1 hm
  intro h
  have : d = '-' := by simpa using h
  subst this
  exact absurd hd (by decide)

/-- Every text which is taken is of one kind and read by the layout of this kind. -/
theorem kind_of {s : Text} {t : Time} (h : Taken s t) : ∃ i, i ≤ 4 ∧ Kind s i ∧ parse (layoutOf i) s = some t := by
  cases h with
  | @date y m d _ k hy hyy hm hd h0 hv =>
    refine ⟨0, by decide, ⟨four_at hy, ?_⟩, complete_date hy hyy hm hd h0 hv⟩
    intro hx
    simp only [List.mem_append, List.mem_cons] at hx
    rcases hx with hx | hx | hx | hx | hx
    · exact not_dig (by decide) (hy.2.1 _ hx)
    · exact absurd hx (by decide)
    · exact not_dig (by decide) (hm.2.1 _ hx)
    · exact absurd hx (by decide)
    · exact not_dig (by decide) (hd.2.1 _ hx)
  | full hy hyy hm hd hc hz hv =>
    exact ⟨1, by decide, ⟨four_at hy, by simp⟩, complete_full hy hyy hm hd hc hz hv⟩
  | @odd dd mm m d r _ k l hdd hmm hl hy hm hd hr hv =>
    have hpre : ∀ c, digit c = false → c ≠ '-' → c ∉ r → c ∉ dd ++ '0' :: (mm ++ '-' :: (m ++ '-' :: (d ++ r))) := by
      intro c h1 h2 h3 hx
      simp only [List.mem_append, List.mem_cons] at hx
      rcases hx with hx | rfl | hx | hx | hx | hx | hx | hx
      · exact not_dig h1 (hdd.2.1 _ hx)
      · exact absurd h1 (by decide)
      · exact not_dig h1 (hmm.2.1 _ hx)
      · exact h2 hx
      · exact not_dig h1 (short_chars hm _ hx)
      · exact h2 hx
      · exact not_dig h1 (short_chars hd _ hx)
      · exact h3 hx
    rcases hr with ⟨rfl, h0⟩ | ⟨c, z, rfl, hc, hz⟩ | ⟨j, c, rfl, hc, hz⟩
    · exact ⟨4, by decide, ⟨odd_at hdd hmm, hpre _ (by decide) (by decide) (by simp),
        hpre _ (by decide) (by decide) (by simp)⟩, complete_odd hdd hmm hl hy hm hd h0 hv⟩
    · exact ⟨2, by decide, ⟨odd_at hdd hmm, by simp⟩, complete_lower hdd hmm hl hy hm hd hc hz hv⟩
    · refine ⟨3, by decide, ⟨odd_at hdd hmm, hpre _ (by decide) (by decide) ?_, by simp [List.replicate_succ]⟩,
        complete_spaced j hdd hmm hl hy hm hd hc hz hv⟩
      intro hx
      rcases List.mem_append.1 hx with hx | hx
      · exact absurd (List.eq_of_mem_replicate hx) (by decide)
      · rcases clock_chars hc _ hx with h | h | h | h
        · exact not_dig (by decide) h
        · exact absurd h (by decide)
        · exact absurd h (by decide)
        · exact absurd h (by decide)

theorem layoutOf_mem {i : Nat} : layoutOf i ∈ timestampLayouts := by
  unfold layoutOf timestampLayouts
  split <;> simp

theorem taken_unique {s : Text} {t t' : Time} (h : Taken s t) (h' : Taken s t') : t = t' := by
  obtain ⟨i, hi, ki, pi⟩ := kind_of h
  obtain ⟨j, hj, kj, pj⟩ := kind_of h'
  have := kind_unique ki kj hi hj
  subst this
  rw [pi] at pj
  exact Option.some.inj pj

/-- C74: exactly these texts are converted, to exactly these times. -/
theorem accepted_iff {s : Text} {t : Time} : toTimestamp s = some t ↔ Taken s t := by
  constructor
  · intro h
    obtain ⟨l, hl, h⟩ := List.exists_of_findSome?_eq_some h
    exact sound hl h
  · intro h
    obtain ⟨i, _, _, hp⟩ := kind_of h
    cases ht : toTimestamp s with
    | none =>
      have := List.findSome?_eq_none_iff.1 ht _ (layoutOf_mem (i := i))
      rw [hp] at this; cases this
    | some t' =>
      obtain ⟨l, hl, h'⟩ := List.exists_of_findSome?_eq_some ht
      rw [taken_unique h (sound hl h')]

/-- C74: `IsTimestamp` says exactly whether `ToTimestamp` succeeds. -/
theorem isTimestamp_iff {s : Text} : isTimestamp s = true ↔ ∃ t, toTimestamp s = some t := by
  simp only [isTimestamp, List.any_eq_true]
  constructor
  · rintro ⟨l, hl, h⟩
    obtain ⟨t, ht⟩ := Option.isSome_iff_exists.1 h
    exact ⟨t, accepted_iff.2 (sound hl ht)⟩
  · rintro ⟨t, h⟩
    obtain ⟨l, hl, h⟩ := List.exists_of_findSome?_eq_some h
    exact ⟨l, hl, by rw [h]; rfl⟩

/-! ### Timestamps of YAML -/

/-- The characters of the texts which are accepted and whose year has four digits. -/
theorem taken_chars {s : Text} {t : Time} (h : Taken s t) (h4 : s[4]? = some '-') :
    ∀ c ∈ s, Dig c ∨ c ∈ ['-', 'T', ':', '.', ',', 'Z', '+'] := by
  intro x hx
  cases h with
  | date hy hyy hm hd h0 hv =>
    simp only [List.mem_append, List.mem_cons] at hx
    rcases hx with hx | rfl | hx | rfl | hx
    · exact .inl (hy.2.1 _ hx)
    · simp
    · exact .inl (hm.2.1 _ hx)
    · simp
    · exact .inl (hd.2.1 _ hx)
  | full hy hyy hm hd hc hz hv =>
    simp only [List.mem_append, List.mem_cons] at hx
    rcases hx with hx | rfl | hx | rfl | hx | rfl | hx | hx
    · exact .inl (hy.2.1 _ hx)
    · simp
    · exact .inl (short_chars hm _ hx)
    · simp
    · exact .inl (short_chars hd _ hx)
    · simp
    · rcases clock_chars hc _ hx with h | rfl | rfl | rfl
      · exact .inl h
      all_goals simp
    · rcases hz with ⟨rfl, _⟩ | ⟨c, hh, mm, h, m, rfl, h1, h2, _, _, h3⟩
      · simp only [List.mem_cons, List.not_mem_nil, or_false] at hx; subst hx; simp
      · simp only [List.mem_append, List.mem_cons] at hx
        rcases hx with rfl | hx | rfl | hx
        · rcases h3 with ⟨rfl, _⟩ | ⟨rfl, _⟩ <;> simp
        · exact .inl (h1.2.1 _ hx)
        · simp
        · exact .inl (h2.2.1 _ hx)
  | odd hdd hmm hl hy hm hd hr hv => exact absurd h4 (odd_at hdd hmm)

theorem stamp_four {s : Text} {t : Time} (h : Stamp s t) : s[4]? = some '-' := by
  cases h with
  | date hy => exact four_at hy
  | full hy => exact four_at hy

/-- C74: no timestamp of YAML with a small `t` or with a blank is accepted, although the layouts "lower t" and "space
separated" are there for them: `2001` is not the year of Go's reference time. -/
theorem lower_and_spaced_refused {s : Text} {t : Time} (h : Stamp s t) {c : Char} (hc : c = 't' ∨ c = ' ' ∨ c = '\t')
    (hs : c ∈ s) : toTimestamp s = none := by
  cases ht : toTimestamp s with
  | none => rfl
  | some t' =>
    have := taken_chars (accepted_iff.1 ht) (stamp_four h) c hs
    rcases this with h | h
    · rcases hc with rfl | rfl | rfl <;> exact absurd h (not_dig (by decide))
    · rcases hc with rfl | rfl | rfl <;> exact absurd h (by decide)

/-- Splitting at the first occurrence of a character. -/
theorem split_first {a a' b b' : Text} {c : Char} (ha : c ∉ a) (ha' : c ∉ a') (h : a ++ c :: b = a' ++ c :: b') :
    a = a' ∧ b = b' := by
  induction a generalizing a' with
  | nil =>
    cases a' with
    | nil => simpa using h
    | cons x a' => simp at h; exact absurd (by simp [h.1]) ha'
  | cons x a ih =>
    cases a' with
    | nil => simp at h; exact absurd (by simp [h.1]) ha
    | cons x' a' =>
      simp only [List.cons_append, List.cons.injEq] at h
      obtain ⟨h1, h2⟩ := ih (fun hm => ha (by simp [hm])) (fun hm => ha' (by simp [hm])) h.2
      exact ⟨by rw [h.1, h1], h2⟩

/-- Splitting after the digits. -/
theorem split_digits {a a' b b' : Text} (ha : ∀ c ∈ a, Dig c) (ha' : ∀ c ∈ a', Dig c) (hb : NoDig b) (hb' : NoDig b')
    (h : a ++ b = a' ++ b') : a = a' ∧ b = b' := by
  have h1 := takeWhile_noDig (fun d hd => dig_iff.1 (ha d hd)) hb
  have h2 := takeWhile_noDig (fun d hd => dig_iff.1 (ha' d hd)) hb'
  rw [h] at h1
  exact ⟨h1.1.symm.trans h2.1, h1.2.symm.trans h2.2⟩

theorem digits_not {x : Text} (h : ∀ c ∈ x, Dig c) {c : Char} (hc : digit c = false) : c ∉ x :=
  fun hx => not_dig hc (h c hx)

/-- A zone without blanks begins with one of three characters. -/
theorem zone_head {z : Text} {o : Int} (h : Zone z o) (hb : ∀ c ∈ z, c ≠ ' ' ∧ c ≠ '\t') :
    z = [] ∨ ∃ c z', z = c :: z' ∧ (c = 'Z' ∨ c = '+' ∨ c = '-') := by
  have hnil : ∀ b r : Text, Blanks b → (∀ c ∈ b ++ r, c ≠ ' ' ∧ c ≠ '\t') → b = [] := by
    intro b r h1 h2
    cases b with
    | nil => rfl
    | cons x b =>
      rcases h1 x (by simp) with rfl | rfl
      · exact absurd rfl (h2 ' ' (by simp)).1
      · exact absurd rfl (h2 '\t' (by simp)).2
  cases h with
  | none => exact .inl rfl
  | utc hb' => rw [hnil _ _ hb' hb]; exact .inr ⟨'Z', [], rfl, by simp⟩
  | hours hb' _ ho =>
    rw [hnil _ _ hb' hb]
    rcases ho with ⟨rfl, _⟩ | ⟨rfl, _⟩ <;> exact .inr ⟨_, _, rfl, by simp⟩
  | minutes hb' _ _ ho =>
    rw [hnil _ _ hb' hb]
    rcases ho with ⟨rfl, _⟩ | ⟨rfl, _⟩ <;> exact .inr ⟨_, _, rfl, by simp⟩

theorem frac_head {f z : Text} {n : Nat} {z0 : Char} {z' : Text} (h : Fraction f n) (hz : f ++ z = z0 :: z')
    (hz0 : z0 ≠ '.') : f = [] := by
  rcases h with ⟨rfl, _⟩ | ⟨ds, rfl, _⟩
  · rfl
  · simp at hz; exact absurd hz.1.symm hz0

theorem iso_head {z : Text} {o : Int} (h : (z = ['Z'] ∧ o = 0) ∨ Offset z o) :
    ∃ c z', z = c :: z' ∧ (c = 'Z' ∨ c = '+' ∨ c = '-') := by
  rcases h with ⟨rfl, _⟩ | ⟨c, hh, mm, h, m, rfl, _, _, _, _, ⟨rfl, _⟩ | ⟨rfl, _⟩⟩
  · exact ⟨_, _, rfl, by simp⟩
  · exact ⟨_, _, rfl, by simp⟩
  · exact ⟨_, _, rfl, by simp⟩

theorem noDig_fraction {f z : Text} {n : Nat} (h : Fraction f n) (hz : NoDig z) : NoDig (f ++ z) := by
  rcases h with ⟨rfl, _⟩ | ⟨ds, rfl, _⟩
  · exact hz
  · exact noDig_cons (by decide)

theorem noDig_head {z : Text} (h : z = [] ∨ ∃ c z', z = c :: z' ∧ (c = 'Z' ∨ c = '+' ∨ c = '-')) : NoDig z := by
  rcases h with rfl | ⟨c, z', rfl, rfl | rfl | rfl⟩
  · exact noDig_nil
  all_goals exact noDig_cons (by decide)

theorem date_no_T {y m d : Text} {k a b : Nat} (hy : Digits 4 y k) (hm : Digits 2 m a) (hd : Digits 2 d b) :
    'T' ∉ y ++ '-' :: (m ++ '-' :: d) := by
  intro hx
  simp only [List.mem_append, List.mem_cons] at hx
  rcases hx with hx | hx | hx | hx | hx
  · exact not_dig (by decide) (hy.2.1 _ hx)
  · exact absurd hx (by decide)
  · exact not_dig (by decide) (hm.2.1 _ hx)
  · exact absurd hx (by decide)
  · exact not_dig (by decide) (hd.2.1 _ hx)

theorem stamp_forms {y m d sep h mi s fr z : Text} {t t' : Time} {yy a b hr mn sc n : Nat} {o : Int}
    (hy : Digits 4 y yy) (hm : Short m a) (hd : Short d b) (hs : Sep sep) (hh : Short h hr) (hmi : Digits 2 mi mn)
    (hse : Digits 2 s sc) (hf : Fraction fr n) (hz : Zone z o)
    (ht : Taken (y ++ '-' :: (m ++ '-' :: (d ++ (sep ++ (h ++ ':' :: (mi ++ ':' :: (s ++ (fr ++ z)))))))) t') :
    sep = ['T'] ∧ fr ≠ ['.'] ∧ (z = ['Z'] ∨ ∃ o, Offset z o) := by
  have hch := taken_chars ht (four_at hy)
  have hno : ∀ c, c = 't' ∨ c = ' ' ∨ c = '\t' →
      c ∉ y ++ '-' :: (m ++ '-' :: (d ++ (sep ++ (h ++ ':' :: (mi ++ ':' :: (s ++ (fr ++ z))))))) := by
    intro c hc hx
    rcases hch c hx with h | h
    · rcases hc with rfl | rfl | rfl <;> exact absurd h (not_dig (by decide))
    · rcases hc with rfl | rfl | rfl <;> exact absurd h (by decide)
  have hsep : sep = ['T'] := by
    rcases hs with h | rfl | ⟨hne, hb⟩
    · exact h
    · exact absurd (by simp) (hno 't' (.inl rfl))
    · match sep, hne, hb with
      | x :: sep, _, hb =>
        exact absurd (by simp) (hno x (.inr (hb x (by simp))))
  subst hsep
  have hzb : ∀ c ∈ z, c ≠ ' ' ∧ c ≠ '\t' := by
    intro c hc
    constructor
    · rintro rfl; exact hno ' ' (.inr (.inl rfl)) (by simp [hc])
    · rintro rfl; exact hno '\t' (.inr (.inr rfl)) (by simp [hc])
  have hzh := zone_head hz hzb
  refine ⟨rfl, ?_⟩
  generalize hS : y ++ '-' :: (m ++ '-' :: (d ++ (['T'] ++ (h ++ ':' :: (mi ++ ':' :: (s ++ (fr ++ z))))))) = S at ht
  cases ht with
  | date hy' hyy' hm' hd' h0' hv' => exact absurd (by rw [← hS]; simp) (date_no_T hy' hm' hd')
  | odd hdd hmm => exact absurd (hS ▸ four_at hy) (odd_at hdd hmm)
  | @full y' m' d' c' z' _ k' hy' hyy' hm' hd' hc' hz' hv' =>
    obtain ⟨hh', mi', ss', fr', rfl, h1, h2, h3, h4⟩ := hc'
    obtain ⟨_, hS⟩ := split_first (digits_not hy.2.1 (by decide)) (digits_not hy'.2.1 (by decide)) hS
    obtain ⟨_, hS⟩ := split_first (digits_not (short_chars hm) (by decide)) (digits_not (short_chars hm') (by decide)) hS
    obtain ⟨_, hS⟩ := split_first (digits_not (short_chars hd) (by decide)) (digits_not (short_chars hd') (by decide))
      (show d ++ 'T' :: (h ++ ':' :: (mi ++ ':' :: (s ++ (fr ++ z)))) = _ from hS)
    simp only [List.append_assoc, List.cons_append] at hS
    obtain ⟨_, hS⟩ := split_first (digits_not (short_chars hh) (by decide)) (digits_not (short_chars h1) (by decide)) hS
    obtain ⟨_, hS⟩ := split_first (digits_not hmi.2.1 (by decide)) (digits_not (short_chars h2) (by decide)) hS
    have hzi := iso_head hz'
    obtain ⟨_, hS⟩ := split_digits hse.2.1 (short_chars h3) (noDig_fraction hf (noDig_head hzh))
      (noDig_frac h4 (noDig_head (.inr hzi))) hS
    have hz'' : z' = ['Z'] ∨ ∃ o, Offset z' o := by
      rcases hz' with ⟨h, _⟩ | h
      · exact .inl h
      · exact .inr ⟨_, h⟩
    rcases h4 with ⟨rfl, _⟩ | ⟨c, ds, rfl, hc, hne, hds, _⟩
    · obtain ⟨c, z1, rfl, hc⟩ := hzi
      have := frac_head hf (by simpa using hS) (by rcases hc with rfl | rfl | rfl <;> decide)
      subst this
      have hS : z = c :: z1 := by simpa using hS
      exact ⟨by simp, hS ▸ hz''⟩
    · rcases hf with ⟨rfl, _⟩ | ⟨ds0, rfl, hds0, _⟩
      · exfalso
        have hS : z = c :: (ds ++ z') := by simpa using hS
        rcases hzh with rfl | ⟨c1, z1, rfl, hc1⟩
        · cases hS
        · simp only [List.cons.injEq] at hS
          obtain ⟨rfl, _⟩ := hS
          rcases hc with rfl | rfl <;> exact absurd hc1 (by decide)
      · simp only [List.cons_append, List.cons.injEq] at hS
        obtain ⟨rfl, rfl⟩ := split_digits hds0 hds (noDig_head hzh) (noDig_head (.inr hzi)) hS.2
        exact ⟨by simpa using hne, hz''⟩

/-- An offset has one value. -/
theorem zone_offset {z : Text} {o o' : Int} (h : Zone z o) (h' : Offset z o') : o = o' := by
  obtain ⟨c', hh', mm', h', m', rfl, h1, h2, _, _, h3⟩ := h'
  have hsign : c' = '+' ∨ c' = '-' := by rcases h3 with ⟨h, _⟩ | ⟨h, _⟩ <;> simp [h]
  have hnil : ∀ b r : Text, Blanks b → b ++ r = c' :: (hh' ++ ':' :: mm') → b = [] := by
    intro b r hb he
    cases b with
    | nil => rfl
    | cons x b =>
      simp only [List.cons_append, List.cons.injEq] at he
      rcases hb x (by simp) with h | h <;> rcases hsign with h' | h' <;> rw [h, h'] at he <;> exact absurd he.1 (by decide)
  generalize hz : c' :: (hh' ++ ':' :: mm') = z at h
  cases h with
  | none => cases hz
  | @utc b hb =>
    have := hnil _ _ hb hz.symm
    subst this
    simp at hz
  | @hours b hh c h o hb hs ho =>
    have := hnil _ _ hb hz.symm
    subst this
    simp only [List.nil_append, List.cons.injEq] at hz
    have : ':' ∈ hh := by rw [← hz.2]; simp
    exact absurd this (digits_not (short_chars hs) (by decide))
  | @minutes b hh mm c h m o hb hs hm ho =>
    have := hnil _ _ hb hz.symm
    subst this
    simp only [List.nil_append, List.cons.injEq] at hz
    obtain ⟨rfl, hz⟩ := hz
    obtain ⟨rfl, rfl⟩ := split_first (digits_not h1.2.1 (by decide)) (digits_not (short_chars hs) (by decide)) hz
    have e1 : h = h' := by
      rcases hs with hs | hs
      · exact hs.2.2.trans h1.2.2.symm
      · exact hs.2.2.trans h1.2.2.symm
    have e2 : m = m' := hm.2.2.trans h2.2.2.symm
    subst e1 e2
    rcases ho with ⟨rfl, rfl⟩ | ⟨rfl, rfl⟩ <;> rcases h3 with ⟨h, rfl⟩ | ⟨h, rfl⟩
    · rfl
    · exact absurd h (by decide)
    · exact absurd h (by decide)
    · rfl

theorem zone_utc {o : Int} (h : Zone ['Z'] o) : o = 0 := by
  generalize hz : ['Z'] = z at h
  cases h with
  | none => rfl
  | utc => rfl
  | @hours b hh c h o hb hs ho =>
    exfalso
    have hm : 'Z' ∈ b ++ c :: hh := by rw [← hz]; simp
    have hl := congrArg List.length hz
    have hb0 : b = [] := by
      cases b with
      | nil => rfl
      | cons x b => simp at hl
    subst hb0
    simp only [List.nil_append, List.cons.injEq] at hz
    obtain ⟨rfl, _⟩ := hz
    rcases ho with ⟨h, _⟩ | ⟨h, _⟩ <;> exact absurd h (by decide)
  | @minutes b hh mm c h m o hb hs hm ho =>
    exfalso
    have hl := congrArg List.length hz
    simp at hl
    omega

/-- A YAML timestamp in an accepted form. -/
theorem stamp_taken {y m d h mi s fr z : Text} {t : Time} {yy : Nat} (hy : Digits 4 y yy) (hyy : t.year = yy)
    (hm : Short m t.month) (hd : Short d t.day) (hh : Short h t.hour) (hmi : Digits 2 mi t.minute)
    (hse : Digits 2 s t.second) (hf : Fraction fr t.nsec) (hz : Zone z t.offset) (hv : Valid t) (hfr : fr ≠ ['.'])
    (hzf : z = ['Z'] ∨ ∃ o, Offset z o) :
    Taken (y ++ '-' :: (m ++ '-' :: (d ++ (['T'] ++ (h ++ ':' :: (mi ++ ':' :: (s ++ (fr ++ z)))))))) t := by
  have hz' : (z = ['Z'] ∧ t.offset = 0) ∨ Offset z t.offset := by
    rcases hzf with rfl | ⟨o, ho⟩
    · exact .inl ⟨rfl, zone_utc hz⟩
    · exact .inr (zone_offset hz ho ▸ ho)
  have hf' : Frac fr t.nsec := by
    rcases hf with h | ⟨ds, rfl, h1, h2⟩
    · exact .inl h
    · exact .inr ⟨'.', ds, rfl, .inl rfl, by rintro rfl; exact hfr rfl, h1, h2⟩
  have := Taken.full (c := h ++ ':' :: (mi ++ ':' :: (s ++ fr))) hy hyy hm hd
    ⟨h, mi, s, fr, rfl, hh, .inr hmi, .inr hse, hf'⟩ hz' hv
  simpa using this

/-- C74: which timestamps of YAML with a clock are accepted: those with a capital `T` and with a zone which is `Z` or an
offset of two digits for hours and for minutes, without blanks, and without a lonely dot after the seconds. -/
theorem full_accepted_iff {y m d sep h mi s fr z : Text} {t : Time} {yy : Nat} (hy : Digits 4 y yy)
    (hyy : t.year = yy) (hm : Short m t.month) (hd : Short d t.day) (hs : Sep sep) (hh : Short h t.hour)
    (hmi : Digits 2 mi t.minute) (hse : Digits 2 s t.second) (hf : Fraction fr t.nsec) (hz : Zone z t.offset)
    (hv : Valid t) :
    (∃ t', toTimestamp (y ++ '-' :: (m ++ '-' :: (d ++ (sep ++ (h ++ ':' :: (mi ++ ':' :: (s ++ (fr ++ z)))))))) = some t') ↔
      sep = ['T'] ∧ fr ≠ ['.'] ∧ (z = ['Z'] ∨ ∃ o, Offset z o) := by
  constructor
  · rintro ⟨t', ht⟩
    exact stamp_forms (t := t) hy hm hd hs hh hmi hse hf hz (accepted_iff.1 ht)
  · rintro ⟨rfl, hfr, hzf⟩
    exact ⟨t, accepted_iff.2 (stamp_taken hy hyy hm hd hh hmi hse hf hz hv hfr hzf)⟩

/-- C74: a timestamp of YAML which is accepted is converted to its time. -/
theorem stamp_value {s : Text} {t t' : Time} (h : Stamp s t) (ht : toTimestamp s = some t') : t' = t := by
  refine taken_unique (accepted_iff.1 ht) ?_
  cases h with
  | date hy hyy hm hd h0 hv => exact .date hy hyy hm hd h0 hv
  | full hy hyy hm hd hs hh hmi hse hf hz hv =>
    obtain ⟨rfl, h1, h2⟩ := stamp_forms (t := t) hy hm hd hs hh hmi hse hf hz (accepted_iff.1 ht)
    exact stamp_taken hy hyy hm hd hh hmi hse hf hz hv h1 h2

/-- C74, partial: dates and the full form with a capital `T` and with a zone are converted.  Missing: the forms of
`full_accepted_iff` which are refused. -/
theorem stamp_read_partial {y m d h mi s fr z : Text} {t : Time} {yy : Nat} (hy : Digits 4 y yy) (hyy : t.year = yy)
    (hm : Short m t.month) (hd : Short d t.day) (hh : Short h t.hour) (hmi : Digits 2 mi t.minute)
    (hse : Digits 2 s t.second) (hf : Fraction fr t.nsec) (hz : Zone z t.offset) (hv : Valid t) (hfr : fr ≠ ['.'])
    (hzf : z = ['Z'] ∨ ∃ o, Offset z o) :
    toTimestamp (y ++ '-' :: (m ++ '-' :: (d ++ 'T' :: (h ++ ':' :: (mi ++ ':' :: (s ++ (fr ++ z))))))) = some t :=
  accepted_iff.2 (by simpa using stamp_taken hy hyy hm hd hh hmi hse hf hz hv hfr hzf)

/-- C74: dates are converted. -/
theorem date_read {y m d : Text} {t : Time} {yy : Nat} (hy : Digits 4 y yy) (hyy : t.year = yy)
    (hm : Digits 2 m t.month) (hd : Digits 2 d t.day)
    (h0 : t.hour = 0 ∧ t.minute = 0 ∧ t.second = 0 ∧ t.nsec = 0 ∧ t.offset = 0) (hv : Valid t) :
    toTimestamp (y ++ '-' :: (m ++ '-' :: d)) = some t := accepted_iff.2 (.date hy hyy hm hd h0 hv)

/-! ### Texts of times -/

theorem value_toDigits (n : Nat) : value (Nat.toDigits 10 n) = n := by
  have h := @Nat.ofDigitChars_ten_toDigits n
  rw [← number_value]
  have : ∀ (ds : Text) (k : Nat), ds.foldl (fun n c => n * 10 + digitVal c) k = Nat.ofDigitChars 10 ds k := by
    intro ds
    induction ds with
    | nil => intro k; rfl
    | cons c ds ih =>
      intro k
      rw [Nat.ofDigitChars_cons, List.foldl_cons, ih, Nat.mul_comm]
      rfl
  rw [number, this, h]

theorem value_zeros (k : Nat) (ds : Text) : value (List.replicate k '0' ++ ds) = value ds := by
  induction k with
  | zero => rfl
  | succ k ih => simp [List.replicate_succ, value, ih]

theorem padded_digits {w n : Nat} (hw : 0 < w) (hn : n < 10 ^ w) : Digits w (padded w n) n := by
  have hl := (Nat.length_toDigits_le_iff (b := 10) (n := n) (by decide) hw).2 hn
  refine ⟨?_, ?_, ?_⟩
  · simp only [padded, List.length_append, List.length_replicate]; omega
  · intro c hc
    simp only [padded] at hc
    rcases List.mem_append.1 hc with hc | hc
    · rw [List.eq_of_mem_replicate hc]; exact ⟨by decide, by decide⟩
    · have := Nat.isDigit_of_mem_toDigits (b := 10) (n := n) (by decide) (by decide) hc
      simp only [Char.isDigit, Bool.and_eq_true, decide_eq_true_eq] at this
      exact ⟨this.1, this.2⟩
  · simp only [padded, value_zeros, value_toDigits]

/-- The zone of the text of a time. -/
def zoneText (o : Int) : Text :=
  if o = 0 then ['Z']
  else (if Int.tdiv o 60 < 0 then '-' else '+') ::
    (padded 2 ((Int.tdiv o 60).natAbs / 60) ++ ':' :: padded 2 ((Int.tdiv o 60).natAbs % 60))

theorem text_eq {t : Time} (hy : 0 ≤ t.year) :
    fromTimestamp t = padded 4 t.year.natAbs ++ '-' :: (padded 2 t.month ++ '-' :: (padded 2 t.day ++ 'T' ::
      (padded 2 t.hour ++ ':' :: (padded 2 t.minute ++ ':' :: (padded 2 t.second ++ ([] ++ zoneText t.offset)))))) := by
  have : ¬ t.year < 0 := by omega
  unfold fromTimestamp zoneText
  simp only [this, if_false, List.nil_append, List.append_assoc, List.cons_append]

theorem zoneText_offset {o : Int} (ho : o % 60 = 0) (hr : o.natAbs < 25 * 3600) (h0 : o ≠ 0) : Offset (zoneText o) o := by
  obtain ⟨k, rfl⟩ : ∃ k, o = 60 * k := ⟨o / 60, by omega⟩
  have hk : Int.tdiv (60 * k) 60 = k := Int.mul_tdiv_cancel_left _ (by decide)
  simp only [zoneText, h0, if_false, hk]
  refine ⟨_, padded 2 (k.natAbs / 60), padded 2 (k.natAbs % 60), k.natAbs / 60, k.natAbs % 60, rfl,
    padded_digits (by decide) ?_, padded_digits (by decide) ?_, ?_, ?_, ?_⟩
  · omega
  · omega
  · omega
  · omega
  · have hm : k.natAbs / 60 * 3600 + k.natAbs % 60 * 60 = k.natAbs * 60 := by omega
    rw [hm]
    by_cases hn : k < 0
    · rw [if_pos hn]; exact .inr ⟨rfl, by omega⟩
    · rw [if_neg hn]; exact .inl ⟨rfl, by omega⟩

theorem offset_zone {z : Text} {o : Int} (h : Offset z o) : Zone z o := by
  obtain ⟨c, hh, mm, h, m, rfl, h1, h2, _, _, h3⟩ := h
  exact Zone.minutes (b := []) (by intro c hc; cases hc) (.inr h1) h2 h3

theorem lastDay_le (y : Int) (m : Nat) : lastDay y m ≤ 31 := by
  unfold lastDay
  split
  · split <;> omega
  all_goals omega

/-- C74, partial: the text of a time is a timestamp of YAML which denotes the time up to its fraction of a second, and
reading it gives that time.  Missing: years below 0 and above 9999, offsets which are not whole minutes and offsets of
25 hours and more (for which it is false: `year_lost`, `offset_seconds_lost`). -/
theorem text_of_time_partial {t : Time} (hv : Valid t) (hy : 0 ≤ t.year) (hy' : t.year ≤ 9999)
    (ho : t.offset % 60 = 0) (hr : t.offset.natAbs < 25 * 3600) :
    Stamp (fromTimestamp t) { t with nsec := 0 } ∧ toTimestamp (fromTimestamp t) = some { t with nsec := 0 } := by
  have hv' : Valid { t with nsec := 0 } := hv
  obtain ⟨h1, h2, h3, h4, h5, h6, h7⟩ := hv
  have hl := lastDay_le t.year t.month
  have hz : Zone (zoneText t.offset) t.offset ∧ (zoneText t.offset = ['Z'] ∨ ∃ o, Offset (zoneText t.offset) o) := by
    by_cases h0 : t.offset = 0
    · rw [h0]; exact ⟨Zone.utc (b := []) (by intro c hc; cases hc), .inl rfl⟩
    · have := zoneText_offset ho hr h0
      exact ⟨offset_zone this, .inr ⟨_, this⟩⟩
  have hyy : t.year = t.year.natAbs := by omega
  have d4 : Digits 4 (padded 4 t.year.natAbs) t.year.natAbs := padded_digits (by decide) (by omega)
  have dm : Digits 2 (padded 2 t.month) t.month := padded_digits (by decide) (by omega)
  have dd : Digits 2 (padded 2 t.day) t.day := padded_digits (by decide) (by omega)
  have dh : Digits 2 (padded 2 t.hour) t.hour := padded_digits (by decide) (by omega)
  have dmi : Digits 2 (padded 2 t.minute) t.minute := padded_digits (by decide) (by omega)
  have ds : Digits 2 (padded 2 t.second) t.second := padded_digits (by decide) (by omega)
  rw [text_eq hy]
  constructor
  · exact Stamp.full (t := { t with nsec := 0 }) (sep := ['T']) (fr := []) d4 hyy (.inr dm) (.inr dd) (.inl rfl)
      (.inr dh) dmi ds (.inl ⟨rfl, rfl⟩) hz.1 hv'
  · exact stamp_read_partial (t := { t with nsec := 0 }) (fr := []) d4 hyy (.inr dm) (.inr dd) (.inr dh) dmi ds
      (.inl ⟨rfl, rfl⟩) hz.1 hv' (by simp) hz.2

/-! ### Other classes of scalars -/

theorem taken_start {s : Text} {t : Time} (h : Taken s t) :
    ∃ a b ds r, s = a :: b :: (ds ++ '-' :: r) ∧ digit a = true ∧ digit b = true ∧ ∀ c ∈ ds, digit c = true := by
  cases h with
  | date hy =>
    obtain ⟨a, b, c, d, rfl, ha, hb, hc, hd, _⟩ := digits_four.1 hy
    exact ⟨a, b, [c, d], _, rfl, ha, hb, by simp [hc, hd]⟩
  | full hy =>
    obtain ⟨a, b, c, d, rfl, ha, hb, hc, hd, _⟩ := digits_four.1 hy
    exact ⟨a, b, [c, d], _, rfl, ha, hb, by simp [hc, hd]⟩
  | odd hdd hmm =>
    obtain ⟨a, b, rfl, ha, hb, _⟩ := digits_two.1 hdd
    obtain ⟨c, d, rfl, hc, hd, _⟩ := digits_two.1 hmm
    exact ⟨a, b, ['0', c, d], _, rfl, ha, hb, by simp [hc, hd]; decide⟩

theorem isDec_digit (c : Char) : Schema.isDec c = digit c := by
  have h0 : ('0' ≤ c) ↔ 48 ≤ c.toNat := Iff.rfl
  have h9 : (c ≤ '9') ↔ c.toNat ≤ 57 := Iff.rfl
  simp only [Schema.isDec, digit, h0, h9]
  rfl

/-- C74: a text which is accepted is of no other class of scalars, so that it does not matter that `Any` tries
timestamps first. -/
theorem accepted_no_other_class {s : Text} (h : isTimestamp s = true) :
    Schema.isNull s = false ∧ Schema.isBoolean s = false ∧ Schema.isInteger s = false ∧
      Schema.isUnsignedInteger s = false ∧ Schema.isFloat s = false := by
  obtain ⟨t, ht⟩ := isTimestamp_iff.1 h
  obtain ⟨a, b, ds, r, rfl, ha, hb, hds⟩ := taken_start (accepted_iff.1 ht)
  have hne : ∀ c, digit c = false → a ≠ c ∧ b ≠ c := by
    intro c hc; constructor <;> rintro rfl <;> simp_all
  have hd0 : Schema.isDec '-' = false := by decide
  have hdrop : Schema.dropSign (a :: b :: (ds ++ '-' :: r)) = a :: b :: (ds ++ '-' :: r) := by
    have h1 := (hne '-' (by decide)).1
    have h2 := (hne '+' (by decide)).1
    unfold Schema.dropSign
    split
    · rename_i he; cases he; exact absurd rfl h1
    · rename_i he; cases he; exact absurd rfl h2
    · rfl
  have hplus : Schema.plusOf Schema.isDec (a :: b :: (ds ++ '-' :: r)) = false := by
    simp [Schema.plusOf, hd0]
  have hoct : Schema.octalInteger (a :: b :: (ds ++ '-' :: r)) = false := by
    unfold Schema.octalInteger
    split
    · rename_i he; cases he; exact absurd rfl (hne 'o' (by decide)).2
    · rfl
  have hhex : Schema.hexInteger (a :: b :: (ds ++ '-' :: r)) = false := by
    unfold Schema.hexInteger
    split
    · rename_i he; cases he; exact absurd rfl (hne 'x' (by decide)).2
    · rfl
  have hlit : ∀ (c : Char) (l : Text), digit c = false → a :: b :: (ds ++ '-' :: r) ≠ c :: l := by
    intro c l hc he
    exact (hne c hc).1 (List.cons.inj he).1
  have hword : ∀ w : Text, (∀ c l, w = c :: l → digit c = false) → a :: b :: (ds ++ '-' :: r) ≠ w := by
    intro w hw he
    exact hlit _ _ (hw a _ he.symm) rfl
  refine ⟨?_, ?_, ?_, ?_, ?_⟩
  · simp only [Schema.isNull, Bool.or_eq_false_iff, decide_eq_false_iff_not]
    refine ⟨⟨⟨⟨?_, ?_⟩, ?_⟩, ?_⟩, by simp⟩ <;> exact hlit _ _ (by decide)
  · have : Schema.tryGetBoolean (a :: b :: (ds ++ '-' :: r)) = none := by
      unfold Schema.tryGetBoolean
      have hw : ∀ w ∈ ["true", "True", "TRUE", "false", "False", "FALSE"].map String.toList,
          a :: b :: (ds ++ '-' :: r) ≠ w := by
        intro w hw he
        have ha' : ∀ w ∈ ["true", "True", "TRUE", "false", "False", "FALSE"].map String.toList,
            (w.head?.map digit) = some false := by decide +kernel
        have := ha' w hw
        rw [← he] at this
        simp [ha] at this
      simp only [List.map_cons, List.map_nil, List.mem_cons, List.not_mem_nil, or_false, forall_eq_or_imp, forall_eq] at hw
      simp only [hw, decide_false, Bool.or_false, Bool.false_eq_true, if_false]
    simp [Schema.isBoolean, this]
  · simp [Schema.isInteger, Schema.decimalInteger, hdrop, hplus, hoct, hhex]
  · have : Schema.decimalUnsigned (a :: b :: (ds ++ '-' :: r)) = false := by
      unfold Schema.decimalUnsigned
      split
      · rename_i he; cases he; exact absurd rfl (hne '+' (by decide)).1
      · exact hplus
    simp [Schema.isUnsignedInteger, this, hoct, hhex]
  · have hdot := (hne '.' (by decide)).1
    have hfun : Schema.isDec = digit := funext isDec_digit
    have hdw : (a :: b :: (ds ++ '-' :: r)).dropWhile digit = '-' :: r :=
      (takeWhile_noDig (ds := a :: b :: ds) (r := '-' :: r) (by
        intro d hd
        rcases List.mem_cons.1 hd with rfl | hd
        · exact ha
        · rcases List.mem_cons.1 hd with rfl | hd
          · exact hb
          · exact hds d hd) noDig_dash).2
    have hnum : Schema.floatNumber (a :: b :: (ds ++ '-' :: r)) = false := by
      unfold Schema.floatNumber
      rw [hdrop]
      dsimp only
      split
      · rename_i he; cases he; exact absurd rfl hdot
      · rw [hfun, hdw]
        simp [Schema.floatExp]
    have hw : ∀ w ∈ [".inf", ".Inf", ".INF", ".nan", ".NaN", ".NAN"].map String.toList,
        a :: b :: (ds ++ '-' :: r) ≠ w := by
      intro w hw he
      have ha' : ∀ w ∈ [".inf", ".Inf", ".INF", ".nan", ".NaN", ".NAN"].map String.toList,
          (w.head?.map digit) = some false := by decide +kernel
      have := ha' w hw
      rw [← he] at this
      simp [ha] at this
    simp only [List.map_cons, List.map_nil, List.mem_cons, List.not_mem_nil, or_false, forall_eq_or_imp, forall_eq] at hw
    simp only [Schema.isFloat, hnum, Schema.floatInfinity, Schema.notANumber, hdrop, hw, decide_false, Bool.or_false]

/-! ### What is false -/

/-- A timestamp of the page of the type, with a small `t`, is refused. -/
theorem lower_refused : Stamp "2001-12-14t21:59:43.10-05:00".toList ⟨2001, 12, 14, 21, 59, 43, 100000000, -18000⟩ ∧
    toTimestamp "2001-12-14t21:59:43.10-05:00".toList = none := by
  refine ⟨?_, by decide +kernel⟩
  exact Stamp.full (y := "2001".toList) (m := "12".toList) (d := "14".toList) (sep := ['t']) (h := "21".toList)
    (mi := "59".toList) (s := "43".toList) (fr := ".10".toList) (z := "-05:00".toList) (yy := 2001)
    (t := ⟨2001, 12, 14, 21, 59, 43, 100000000, -18000⟩)
    (by decide +kernel) rfl (.inr (by decide +kernel)) (.inr (by decide +kernel)) (.inr (.inl rfl))
    (.inr (by decide +kernel)) (by decide +kernel) (by decide +kernel)
    (.inr ⟨"10".toList, by decide +kernel, by decide +kernel, by decide +kernel⟩)
    (Zone.minutes (b := []) (c := '-') (hh := "05".toList) (mm := "00".toList) (h := 5) (m := 0)
      (by intro c hc; cases hc) (.inr (by decide +kernel)) (by decide +kernel) (.inr ⟨rfl, rfl⟩))
    (by decide +kernel)

/-- The other one with blanks is refused. -/
theorem spaced_refused : Stamp "2001-12-14 21:59:43.10 -5".toList ⟨2001, 12, 14, 21, 59, 43, 100000000, -18000⟩ ∧
    toTimestamp "2001-12-14 21:59:43.10 -5".toList = none := by
  refine ⟨?_, by decide +kernel⟩
  exact Stamp.full (y := "2001".toList) (m := "12".toList) (d := "14".toList) (sep := [' ']) (h := "21".toList)
    (mi := "59".toList) (s := "43".toList) (fr := ".10".toList) (z := " -5".toList) (yy := 2001)
    (t := ⟨2001, 12, 14, 21, 59, 43, 100000000, -18000⟩)
    (by decide +kernel) rfl (.inr (by decide +kernel)) (.inr (by decide +kernel))
    (.inr (.inr ⟨by decide, by intro c hc; simp at hc; exact .inl hc⟩))
    (.inr (by decide +kernel)) (by decide +kernel) (by decide +kernel)
    (.inr ⟨"10".toList, by decide +kernel, by decide +kernel, by decide +kernel⟩)
    (Zone.hours (b := [' ']) (c := '-') (hh := ['5']) (h := 5)
      (by intro c hc; simp at hc; exact .inl hc) (.inl (by decide +kernel)) (.inr ⟨rfl, rfl⟩))
    (by decide +kernel)

/-- A text which is not a timestamp of YAML, a date of the year 20012, is taken for a date of the year 0. -/
theorem long_year_taken : toTimestamp "20012-03-04".toList = some ⟨0, 3, 4, 0, 0, 0, 0, 0⟩ ∧
    ∀ t, ¬ Stamp "20012-03-04".toList t := by
  refine ⟨by decide +kernel, fun t h => ?_⟩
  exact absurd (stamp_four h) (by decide +kernel)

/-- The own example of the layout "date only short form" is refused. -/
theorem short_date_refused : toTimestamp "2001-1-2".toList = none ∧ toTimestamp "2001-1-2 15:4:5".toList = none := by
  decide +kernel

/-- A fraction of a second is lost. -/
theorem fraction_lost : toTimestamp (fromTimestamp ⟨2001, 12, 14, 21, 59, 43, 100000000, 0⟩) =
    some ⟨2001, 12, 14, 21, 59, 43, 0, 0⟩ := by decide +kernel

/-- Offsets with seconds (Amsterdam until 1937: 19 minutes and 32 seconds) are cut: the instant changes. -/
theorem offset_seconds_lost : toTimestamp (fromTimestamp ⟨1937, 5, 1, 12, 0, 0, 0, 1172⟩) =
    some ⟨1937, 5, 1, 12, 0, 0, 0, 1140⟩ := by decide +kernel

/-- The texts of times after the year 9999 and before the year 0 are refused. -/
theorem year_lost : toTimestamp (fromTimestamp ⟨10000, 1, 1, 0, 0, 0, 0, 0⟩) = none ∧
    toTimestamp (fromTimestamp ⟨-1, 1, 1, 0, 0, 0, 0, 0⟩) = none := by decide +kernel

/-! ### Examples -/

/-- The hypotheses of `text_of_time_partial` hold for a leap day with an offset. -/
example : Valid ⟨2024, 2, 29, 23, 59, 59, 5, -12600⟩ ∧
    fromTimestamp ⟨2024, 2, 29, 23, 59, 59, 5, -12600⟩ = "2024-02-29T23:59:59-03:30".toList := by decide +kernel

/-- Those of `stamp_value` and `stamp_read_partial` hold for the canonical example of the page of the type. -/
example : Stamp "2001-12-15T02:59:43.1Z".toList ⟨2001, 12, 15, 2, 59, 43, 100000000, 0⟩ ∧
    toTimestamp "2001-12-15T02:59:43.1Z".toList = some ⟨2001, 12, 15, 2, 59, 43, 100000000, 0⟩ := by
  refine ⟨?_, by decide +kernel⟩
  exact Stamp.full (y := "2001".toList) (m := "12".toList) (d := "15".toList) (sep := ['T']) (h := "02".toList)
    (mi := "59".toList) (s := "43".toList) (fr := ".1".toList) (z := ['Z']) (yy := 2001)
    (t := ⟨2001, 12, 15, 2, 59, 43, 100000000, 0⟩)
    (by decide +kernel) rfl (.inr (by decide +kernel)) (.inr (by decide +kernel)) (.inl rfl)
    (.inr (by decide +kernel)) (by decide +kernel) (by decide +kernel)
    (.inr ⟨"1".toList, by decide +kernel, by decide +kernel, by decide +kernel⟩)
    (Zone.utc (b := []) (by intro c hc; cases hc))
    (by decide +kernel)

/-- Those of `date_read`. -/
example : toTimestamp "2002-12-14".toList = some ⟨2002, 12, 14, 0, 0, 0, 0, 0⟩ :=
  date_read (y := "2002".toList) (m := "12".toList) (d := "14".toList) (yy := 2002)
    (t := ⟨2002, 12, 14, 0, 0, 0, 0, 0⟩)
    (by decide +kernel) rfl (by decide +kernel) (by decide +kernel) ⟨rfl, rfl, rfl, rfl, rfl⟩ (by decide +kernel)

/-- The 29th of February exists in leap years only; offsets up to 24:60 and commas are taken. -/
example : toTimestamp "2001-02-29".toList = none ∧ (toTimestamp "2000-02-29".toList).isSome = true ∧
    toTimestamp "2001-2-9T1:2:3,5+24:60".toList = some ⟨2001, 2, 9, 1, 2, 3, 500000000, 90000⟩ := by decide +kernel

end Verif.Props.Timestamp
