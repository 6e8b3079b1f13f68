import Verif.Lemmas.Schema
import Verif.Spec.CoreSchema

set_option linter.unusedSimpArgs false

namespace Verif.Schema

open Verif.Strconv Verif.CoreSchema

theorem isDec_iff (c : Char) : isDec c = true ↔ IsDecDigit c := by
  constructor
  · intro h
    simp only [isDec, Bool.and_eq_true, decide_eq_true_eq] at h
    have h0 : '0'.toNat = 48 := rfl
    have h9 : '9'.toNat = 57 := rfl
    obtain ⟨n, hn⟩ : ∃ n : Fin 10, c.toNat = 48 + n.val := ⟨⟨c.toNat - 48, by omega⟩, by simp; omega⟩
    have hc : c = Char.ofNat (48 + n.val) := by rw [← hn, Char.ofNat_toNat]
    have : ∀ n : Fin 10, IsDecDigit (Char.ofNat (48 + n.val)) := by decide
    rw [hc]; exact this n
  · intro h
    have : ∀ c ∈ "0123456789".toList, isDec c = true := by decide
    exact this c h

theorem isOct_iff (c : Char) : isOct c = true ↔ IsOctDigit c := by
  constructor
  · intro h
    simp only [isOct, Bool.and_eq_true, decide_eq_true_eq] at h
    have h0 : '0'.toNat = 48 := rfl
    have h9 : '7'.toNat = 55 := rfl
    obtain ⟨n, hn⟩ : ∃ n : Fin 8, c.toNat = 48 + n.val := ⟨⟨c.toNat - 48, by omega⟩, by simp; omega⟩
    have hc : c = Char.ofNat (48 + n.val) := by rw [← hn, Char.ofNat_toNat]
    have : ∀ n : Fin 8, IsOctDigit (Char.ofNat (48 + n.val)) := by decide
    rw [hc]; exact this n
  · intro h
    have : ∀ c ∈ "01234567".toList, isOct c = true := by decide
    exact this c h

theorem isHex_iff (c : Char) : isHex c = true ↔ IsHexDigit c := by
  constructor
  · intro h
    simp only [isHex, isDec, Bool.or_eq_true, Bool.and_eq_true, decide_eq_true_eq] at h
    have h0 : '0'.toNat = 48 := rfl
    have h9 : '9'.toNat = 57 := rfl
    have ha : 'a'.toNat = 97 := rfl
    have hf : 'f'.toNat = 102 := rfl
    have hA : 'A'.toNat = 65 := rfl
    have hF : 'F'.toNat = 70 := rfl
    have hlt : c.toNat < 103 := by omega
    have : ∀ n : Fin 103, ((48 ≤ n.val ∧ n.val ≤ 57) ∨ (97 ≤ n.val ∧ n.val ≤ 102)) ∨ (65 ≤ n.val ∧ n.val ≤ 70) →
        IsHexDigit (Char.ofNat n.val) := by decide
    have := this ⟨c.toNat, hlt⟩ (by simpa [h0, h9, ha, hf, hA, hF] using h)
    simpa [Char.ofNat_toNat] using this
  · intro h
    have : ∀ c ∈ "0123456789abcdefABCDEF".toList, isHex c = true := by decide
    exact this c h

theorem digitVal_hex {c : Char} (h : IsHexDigit c) : digitVal c = some (digit c) := by
  have : ∀ c ∈ "0123456789abcdefABCDEF".toList, digitVal c = some (digit c) := by decide
  exact this c h

theorem dec_hex {c : Char} (h : IsDecDigit c) : IsHexDigit c := by
  have : ∀ c ∈ "0123456789".toList, IsHexDigit c := by decide
  exact this c h

theorem oct_hex {c : Char} (h : IsOctDigit c) : IsHexDigit c := by
  have : ∀ c ∈ "01234567".toList, IsHexDigit c := by decide
  exact this c h

theorem natOf_eq (base : Nat) {ds : List Char} (h : ∀ c ∈ ds, IsHexDigit c) : natOf base ds = number base ds := by
  unfold natOf number
  suffices H : ∀ a, ds.foldl (fun n c => n * base + (digitVal c).getD 0) a =
      ds.foldl (fun n c => n * base + digit c) a from H 0
  intro a
  induction ds generalizing a with
  | nil => rfl
  | cons c ds ih =>
    simp only [List.foldl_cons]
    rw [digitVal_hex (h c (by simp)), ih (fun c hc => h c (by simp [hc]))]
    rfl

theorem plusOf_iff {p : Char → Bool} {P : Char → Prop} (hp : ∀ c, p c = true ↔ P c) (s : List Char) :
    plusOf p s = true ↔ s ≠ [] ∧ ∀ c ∈ s, P c := by
  simp [plusOf, hp]

theorem inRange_iff (bits : Nat) (v : Int) :
    InRange bits v ↔ -((2 ^ (bits - 1) : Nat) : Int) ≤ v ∧ v < ((2 ^ (bits - 1) : Nat) : Int) := by
  simp [InRange]

/-- signed conversion of an unsigned text. -/
theorem parseInt0_pos {s : List Char} {n bits : Nat} (hb : 0 < bits) (hne : s ≠ [])
    (hs : ∀ c r, s = c :: r → c ≠ '+' ∧ c ≠ '-') (hp : parseUint0 s bits = ranged n bits) :
    parseInt0 s bits = if InRange bits n then .ok (n : Int) else .error .range := by
  unfold parseInt0
  rw [parseIntWith_nosign hne hs, hp]
  have h2 := two_pow_split hb
  have hr := inRange_iff bits n
  unfold ranged
  rw [h2]
  have hpos : 0 < 2 ^ (bits - 1) := Nat.pos_of_ne_zero (by simp)
  generalize 2 ^ (bits - 1) = M at *
  by_cases h : n < 2 * M
  · rw [if_pos h]
    simp only
    by_cases h3 : n ≥ M
    · rw [if_pos h3, if_neg (by rw [hr]; omega)]
    · rw [if_neg h3, if_pos (by rw [hr]; omega)]
  · rw [if_neg h]
    simp only
    rw [if_neg (by rw [hr]; omega)]

theorem parseInt0_plus {s : List Char} {n bits : Nat} (hb : 0 < bits)
    (hp : parseUint0 s bits = ranged n bits) :
    parseInt0 ('+' :: s) bits = if InRange bits n then .ok (n : Int) else .error .range := by
  unfold parseInt0 parseIntWith
  simp only [hp]
  have h2 := two_pow_split hb
  have hr := inRange_iff bits n
  unfold ranged
  rw [h2]
  have hpos : 0 < 2 ^ (bits - 1) := Nat.pos_of_ne_zero (by simp)
  generalize 2 ^ (bits - 1) = M at *
  by_cases h : n < 2 * M
  · rw [if_pos h]
    simp
    by_cases h3 : n ≥ M
    · rw [if_pos h3, if_neg (by rw [hr]; omega)]
    · rw [if_neg (by omega), if_pos (by rw [hr]; omega)]
  · rw [if_neg h]
    simp only
    rw [if_neg (by rw [hr]; omega)]

theorem parseInt0_minus {s : List Char} {n bits : Nat} (hb : 0 < bits)
    (hp : parseUint0 s bits = ranged n bits) :
    parseInt0 ('-' :: s) bits = if InRange bits (-(n : Int)) then .ok (-(n : Int)) else .error .range := by
  unfold parseInt0 parseIntWith
  simp only [hp]
  have h2 := two_pow_split hb
  have hr := inRange_iff bits (-(n : Int))
  unfold ranged
  rw [h2]
  have hpos : 0 < 2 ^ (bits - 1) := Nat.pos_of_ne_zero (by simp)
  generalize 2 ^ (bits - 1) = M at *
  by_cases h : n < 2 * M
  · rw [if_pos h]
    simp
    by_cases h3 : n > M
    · rw [if_pos h3, if_neg (by rw [hr]; omega)]
    · rw [if_neg (by omega), if_pos (by rw [hr]; omega)]
  · rw [if_neg h]
    simp only
    rw [if_neg (by rw [hr]; omega)]

theorem parseUint0_number {s : List Char} (bits : Nat) (hne : s ≠ []) (hd : ∀ c ∈ s, IsDecDigit c)
    (hz : ¬ ∃ c ds, IsDecDigit c ∧ s = '0' :: c :: ds) : parseUint0 s bits = ranged (number 10 s) bits := by
  rw [← natOf_eq 10 (fun c hc => dec_hex (hd c hc))]
  apply parseUint0_decimal bits ((plusOf_iff isDec_iff s).2 ⟨hne, hd⟩)
  cases s with
  | nil => exact absurd rfl hne
  | cons c r =>
    cases r with
    | nil =>
      by_cases hc : c = '0'
      · left; rw [hc]
      · right; simpa using hc
    | cons d r =>
      right
      intro hc
      simp at hc
      exact hz ⟨d, r, hd d (by simp), by rw [hc]⟩

theorem parseUint0_octal' {ds : List Char} (bits : Nat) (hne : ds ≠ []) (hd : ∀ c ∈ ds, IsOctDigit c) :
    parseUint0 ('0' :: 'o' :: ds) bits = ranged (number 8 ds) bits := by
  rw [← natOf_eq 8 (fun c hc => oct_hex (hd c hc))]
  exact parseUint0_octal bits ((plusOf_iff isOct_iff ds).2 ⟨hne, hd⟩)

theorem parseUint0_hex' {ds : List Char} (bits : Nat) (hne : ds ≠ []) (hd : ∀ c ∈ ds, IsHexDigit c) :
    parseUint0 ('0' :: 'x' :: ds) bits = ranged (number 16 ds) bits := by
  rw [← natOf_eq 16 hd]
  exact parseUint0_hex bits ((plusOf_iff isHex_iff ds).2 ⟨hne, hd⟩)

theorem dec_nosign {s : List Char} (hd : ∀ c ∈ s, IsDecDigit c) : ∀ c r, s = c :: r → c ≠ '+' ∧ c ≠ '-' := by
  rintro c r rfl
  have := hd c (by simp)
  constructor <;> rintro rfl <;> revert this <;> decide

/-- A superfluous leading zero selects base 8. -/
theorem parseUint0_leading_zero {c : Char} {ds : List Char} (bits : Nat)
    (hd : ∀ x ∈ c :: ds, IsOctDigit x) : parseUint0 ('0' :: c :: ds) bits = ranged (number 8 (c :: ds)) bits := by
  have hpos : 0 < 2 ^ bits := Nat.pos_of_ne_zero (by simp)
  rw [← natOf_eq 8 (fun c hc => oct_hex (hd c hc))]
  unfold parseUint0 ranged
  rw [if_neg (by simp)]
  have hsb : splitBase ('0' :: c :: ds) = (8, c :: ds) := by
    have hc := hd c (by simp)
    have : ∀ c ∈ "01234567".toList, ¬ (c = 'b' ∨ c = 'B') ∧ ¬ (c = 'o' ∨ c = 'O') ∧ ¬ (c = 'x' ∨ c = 'X') := by
      decide
    obtain ⟨h1, h2, h3⟩ := this c hc
    cases ds <;> simp_all [splitBase]
  rw [hsb]
  simp only
  rw [digitLoop_natOf 8 _ true (by omega) _ (fun c' hc' => isOct_digit ((isOct_iff c').2 (hd c' hc')))]
  by_cases hlt : natOf 8 (c :: ds) < 2 ^ bits
  · rw [if_pos (show natOf 8 (c :: ds) ≤ 2 ^ bits - 1 by omega), if_pos hlt]; rfl
  · rw [if_neg (show ¬ natOf 8 (c :: ds) ≤ 2 ^ bits - 1 by omega), if_neg hlt]

theorem isInteger_iff_denotes (s : List Char) : isInteger s = true ↔ ∃ v, Denotes s v := by
  constructor
  · intro h
    simp only [isInteger, Bool.or_eq_true] at h
    rcases h with (h | h) | h
    · unfold decimalInteger dropSign at h
      split at h
      · obtain ⟨h1, h2⟩ := (plusOf_iff isDec_iff _).1 h; exact ⟨_, .minus _ h1 h2⟩
      · obtain ⟨h1, h2⟩ := (plusOf_iff isDec_iff _).1 h; exact ⟨_, .plus _ h1 h2⟩
      · obtain ⟨h1, h2⟩ := (plusOf_iff isDec_iff _).1 h; exact ⟨_, .dec _ h1 h2⟩
    · unfold octalInteger at h
      split at h
      · obtain ⟨h1, h2⟩ := (plusOf_iff isOct_iff _).1 h; exact ⟨_, .oct _ h1 h2⟩
      · cases h
    · unfold hexInteger at h
      split at h
      · obtain ⟨h1, h2⟩ := (plusOf_iff isHex_iff _).1 h; exact ⟨_, .hex _ h1 h2⟩
      · cases h
  · rintro ⟨v, h⟩
    simp only [isInteger, Bool.or_eq_true]
    cases h with
    | dec _ h hd =>
      left; left
      have hns := dec_nosign hd
      unfold decimalInteger dropSign
      split
      · exact absurd rfl (hns _ _ rfl).2
      · exact absurd rfl (hns _ _ rfl).1
      · exact (plusOf_iff isDec_iff _).2 ⟨h, hd⟩
    | plus ds h hd => left; left; exact (plusOf_iff isDec_iff _).2 ⟨h, hd⟩
    | minus ds h hd => left; left; exact (plusOf_iff isDec_iff _).2 ⟨h, hd⟩
    | oct ds h hd => left; right; exact (plusOf_iff isOct_iff _).2 ⟨h, hd⟩
    | hex ds h hd => right; exact (plusOf_iff isHex_iff _).2 ⟨h, hd⟩

/-! ### floats -/

theorem takeWhile_all {p : Char → Bool} {s : List Char} (h : ∀ c ∈ s, p c = true) :
    s.takeWhile p = s ∧ s.dropWhile p = [] := by
  induction s with
  | nil => simp
  | cons c s ih =>
    have := ih (fun c hc => h c (by simp [hc]))
    simp [h c (by simp), this]

theorem decimalInteger_float {s : List Char} (h : decimalInteger s = true) : floatNumber s = true := by
  unfold decimalInteger at h
  unfold floatNumber
  generalize dropSign s = t at h
  obtain ⟨hne, hall⟩ := plusOf_split h
  obtain ⟨h1, h2⟩ := takeWhile_all hall
  simp only
  split
  · have := hall '.' (by simp)
    exact absurd this (by decide)
  · simp only [h1, h2, floatExp, Bool.and_true]
    cases t with
    | nil => exact absurd rfl hne
    | cons => rfl

end Verif.Schema
