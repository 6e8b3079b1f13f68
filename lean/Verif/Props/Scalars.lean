import Verif.Lemmas.CoreSchema
import Verif.Lemmas.GoInteger

/-!
C15, C16, C17, C68: scalar texts and integers (`engines/pkg/schema/schema.go`).
-/

deriving instance DecidableEq for Except

namespace Verif.Props.Scalars

open Verif.Schema Verif.Strconv Verif.CoreSchema

/-! ### C15 -/

/-- C15 (signed): the text of an integer converts back to it at every bit size which holds it (0 standing for 64) and is rejected as
out of range at every other one; it is classified as an integer. -/
theorem integer_roundtrip (v : Int) (bits : Nat) :
    isInteger (fromInteger v) = true ∧
      (InRange (width bits) v → toInteger (fromInteger v) bits = .ok v) ∧
      (¬ InRange (width bits) v → toInteger (fromInteger v) bits = .error .range) := by
  refine ⟨?_, ?_, ?_⟩
  · rw [isInteger_iff_denotes]
    unfold fromInteger formatInt
    cases v with
    | ofNat n =>
      refine ⟨_, .dec _ (formatUint_ne_nil n) ?_⟩
      intro c hc
      exact (isDec_iff c).1 (List.all_eq_true.1 (formatUint_all_dec n) c hc)
    | negSucc n =>
      refine ⟨_, .minus _ (formatUint_ne_nil _) ?_⟩
      intro c hc
      exact (isDec_iff c).1 (List.all_eq_true.1 (formatUint_all_dec _) c hc)
  · intro h; unfold toInteger fromInteger; rw [parseInt0_format v (width bits) (width_pos bits)]; exact if_pos h
  · intro h; unfold toInteger fromInteger; rw [parseInt0_format v (width bits) (width_pos bits)]; exact if_neg h

example : InRange 8 (-128) ∧ ¬ InRange 8 128 := by decide
example : fromInteger (-128) = "-128".toList := by decide +kernel

/-- C15 (unsigned). -/
theorem unsigned_roundtrip (v : Nat) (bits : Nat) :
    isUnsignedInteger (fromUnsignedInteger v) = true ∧
      (v < 2 ^ width bits → toUnsignedInteger (fromUnsignedInteger v) bits = .ok v) ∧
      (2 ^ width bits ≤ v → toUnsignedInteger (fromUnsignedInteger v) bits = .error .range) := by
  refine ⟨?_, ?_, ?_⟩
  · unfold isUnsignedInteger fromUnsignedInteger decimalUnsigned
    simp only [Bool.or_eq_true]
    left; left
    split
    · rename_i heq; exact absurd rfl (formatUint_no_sign v _ _ heq).1
    · simp only [plusOf, formatUint_all_dec, Bool.and_true]
      have := formatUint_ne_nil v
      cases h : formatUint v with
      | nil => exact absurd h this
      | cons => rfl
  · intro h; unfold toUnsignedInteger fromUnsignedInteger; rw [parseUint0_format]; exact if_pos h
  · intro h; unfold toUnsignedInteger fromUnsignedInteger; rw [parseUint0_format]; exact if_neg (by omega)

example : toUnsignedInteger (fromUnsignedInteger 255) 8 = .ok 255 := by decide +kernel
example : toUnsignedInteger (fromUnsignedInteger 256) 8 = .error .range := by decide +kernel

/-- C15: different integers have different texts. -/
theorem integer_text_injective (v w : Int) (h : fromInteger v = fromInteger w) : v = w := by
  obtain ⟨bits, hb, hv, hw⟩ : ∃ bits, 0 < bits ∧ InRange (width bits) v ∧ InRange (width bits) w := by
    have key : ∀ n : Nat, ((n : Nat) : Int) < 2 ^ n := by
      intro n
      have h := Nat.lt_two_pow_self (n := n)
      have h' : ((n : Nat) : Int) < ((2 ^ n : Nat) : Int) := Int.ofNat_lt.2 h
      simpa using h'
    refine ⟨v.natAbs + w.natAbs + 1, by omega, ?_, ?_⟩ <;>
    · have := key (v.natAbs + w.natAbs)
      unfold InRange
      rw [show width (v.natAbs + w.natAbs + 1) = v.natAbs + w.natAbs + 1 from rfl]
      simp only [Nat.add_sub_cancel]
      generalize (2 : Int) ^ (v.natAbs + w.natAbs) = P at *
      omega
  have h1 := (integer_roundtrip v bits).2.1 hv
  have h2 := (integer_roundtrip w bits).2.1 hw
  rw [h, h2] at h1
  cases h1; rfl

/-! ### C16 -/

/-- C16: the classifier accepts exactly the integer texts of the YAML core schema. -/
theorem isInteger_iff (s : List Char) : isInteger s = true ↔ ∃ v, Denotes s v := isInteger_iff_denotes s

/-- C16 (signed), for texts without a superfluous leading zero: the text converts to the value of the core schema,
or is out of range.  Missing: texts such as `08` and `010`, for which the claim is false
(`leading_zero_is_octal`, `integer_text_rejected`). -/
theorem integer_text_converts_partial (s : List Char) (v : Int) (bits : Nat)
    (hs : Denotes s v) (hz : ¬ LeadingZero s) :
    toInteger s bits = if InRange (width bits) v then .ok v else .error .range := by
  unfold toInteger
  cases hs with
  | dec _ h hd =>
    refine parseInt0_pos (width_pos bits) h (dec_nosign hd) (parseUint0_number (width bits) h hd ?_)
    rintro ⟨c, ds, hc, rfl⟩
    exact hz ⟨c, ds, hc, .inl rfl⟩
  | plus ds h hd =>
    refine parseInt0_plus (width_pos bits) (parseUint0_number (width bits) h hd ?_)
    rintro ⟨c, ds, hc, rfl⟩
    exact hz ⟨c, ds, hc, .inr (.inl rfl)⟩
  | minus ds h hd =>
    refine parseInt0_minus (width_pos bits) (parseUint0_number (width bits) h hd ?_)
    rintro ⟨c, ds, hc, rfl⟩
    exact hz ⟨c, ds, hc, .inr (.inr rfl)⟩
  | oct ds h hd =>
    refine parseInt0_pos (width_pos bits) (by simp) ?_ (parseUint0_octal' (width bits) h hd)
    rintro c r heq
    cases heq
    decide
  | hex ds h hd =>
    refine parseInt0_pos (width_pos bits) (by simp) ?_ (parseUint0_hex' (width bits) h hd)
    rintro c r heq
    cases heq
    decide

example : Denotes "-0".toList 0 := by
  have := Denotes.minus ['0'] (by simp) (by decide)
  simpa [number, digit] using this
example : toInteger "0x7F".toList 8 = .ok 127 := by decide +kernel

/-- C16 refuted: a text classified as an integer is rejected as bad syntax. -/
theorem integer_text_rejected :
    ∃ s, isInteger s = true ∧ toInteger s 64 = .error .syntax :=
  ⟨"08".toList, by decide +kernel, by decide +kernel⟩

/-- C16 refuted, in general: a superfluous leading zero makes the converter read octal digits, whatever value the
core schema gives to the text. -/
theorem leading_zero_is_octal (c : Char) (ds : List Char) (bits : Nat)
    (hd : ∀ x ∈ c :: ds, IsOctDigit x) :
    toInteger ('0' :: c :: ds) bits =
      if InRange (width bits) (number 8 (c :: ds)) then .ok (number 8 (c :: ds) : Int) else .error .range := by
  refine parseInt0_pos (width_pos bits) (by simp) ?_ (parseUint0_leading_zero (width bits) hd)
  rintro c r heq
  cases heq
  decide

/-- C16 refuted by `010`: the core schema says ten, the converter says eight. -/
theorem leading_zero_wrong_value :
    Denotes "010".toList 10 ∧ toInteger "010".toList 64 = .ok 8 := by
  refine ⟨?_, by decide +kernel⟩
  have := Denotes.dec "010".toList (by decide) (by decide)
  have h : number 10 "010".toList = 10 := by decide +kernel
  rw [h] at this
  exact this

/-- C16 (unsigned), for texts without sign and superfluous leading zero. -/
theorem unsigned_text_converts_partial (s : List Char) (v : Nat) (bits : Nat)
    (hs : Denotes s v) (hsign : s.head? ≠ some '+' ∧ s.head? ≠ some '-') (hz : ¬ LeadingZero s) :
    isUnsignedInteger s = true ∧
      toUnsignedInteger s bits = if v < 2 ^ width bits then .ok v else .error .range := by
  unfold toUnsignedInteger isUnsignedInteger
  simp only [Bool.or_eq_true]
  generalize hv : (v : Int) = w at hs
  cases hs with
  | dec _ h hd =>
    have : v = number 10 s := by omega
    subst this
    refine ⟨?_, parseUint0_number (width bits) h hd ?_⟩
    · left; left
      have hns := dec_nosign hd
      unfold decimalUnsigned
      split
      · exact absurd rfl (hns _ _ rfl).1
      · exact (plusOf_iff isDec_iff _).2 ⟨h, hd⟩
    · rintro ⟨c, ds, hc, rfl⟩
      exact hz ⟨c, ds, hc, .inl rfl⟩
  | plus ds h hd => simp at hsign
  | minus ds h hd => simp at hsign
  | oct ds h hd =>
    have : v = number 8 ds := by omega
    subst this
    exact ⟨.inl (.inr ((plusOf_iff isOct_iff _).2 ⟨h, hd⟩)), parseUint0_octal' (width bits) h hd⟩
  | hex ds h hd =>
    have : v = number 16 ds := by omega
    subst this
    exact ⟨.inr ((plusOf_iff isHex_iff _).2 ⟨h, hd⟩), parseUint0_hex' (width bits) h hd⟩

/-- C16 refuted (unsigned), in general: every `+`-signed text is classified as an unsigned integer and none
converts. -/
theorem unsigned_plus_rejected (ds : List Char) (bits : Nat) (h : ds ≠ []) (hd : ∀ c ∈ ds, IsDecDigit c) :
    isUnsignedInteger ('+' :: ds) = true ∧ toUnsignedInteger ('+' :: ds) bits = .error .syntax := by
  refine ⟨?_, ?_⟩
  · unfold isUnsignedInteger decimalUnsigned
    simp [(plusOf_iff isDec_iff ds).2 ⟨h, hd⟩]
  · unfold toUnsignedInteger parseUint0
    rw [if_neg (by simp), splitBase_of_ne (by decide)]
    simp [digitLoop, digitVal]

example : toUnsignedInteger "+5".toList 64 = .error .syntax := by decide +kernel

/-! ### C17 -/

/-- The scalar classes of the schema. -/
def classes (s : List Char) : List Bool :=
  [isNull s, isBoolean s, isInteger s || isUnsignedInteger s || isFloat s, decide (s = mergeKey)]

/-- C17: no text is in two of the classes null, boolean, number, merge key. -/
theorem classes_disjoint (s : List Char) : (classes s).countP (fun b => b) ≤ 1 := by
  by_cases hn : isNull s = true
  · have hcases : s = "null".toList ∨ s = "Null".toList ∨ s = "NULL".toList ∨ s = "~".toList ∨ s = [] := by
      simpa [isNull, or_assoc] using hn
    rcases hcases with h | h | h | h | h <;> subst h <;> decide +kernel
  · by_cases hb : isBoolean s = true
    · have hcases : (s = "true".toList ∨ s = "True".toList ∨ s = "TRUE".toList) ∨
          (s = "false".toList ∨ s = "False".toList ∨ s = "FALSE".toList) := by
        unfold isBoolean tryGetBoolean at hb
        split at hb
        · rename_i h; left; simpa [or_assoc] using h
        · split at hb
          · rename_i h; right; simpa [or_assoc] using h
          · cases hb
      rcases hcases with (h | h | h) | (h | h | h) <;> subst h <;> decide +kernel
    · by_cases hm : s = mergeKey
      · subst hm; decide +kernel
      · simp only [Bool.not_eq_true] at hn hb
        simp only [classes, hn, hb, hm, List.countP_cons, List.countP_nil]
        simp
        split <;> omega

example : classes "12".toList = [false, false, true, false] := by decide +kernel
example : classes "<<".toList = [false, false, false, true] := by decide +kernel

/-- C17: decimal integer texts are float texts as well. -/
theorem decimal_integer_is_float (s : List Char) (h : decimalInteger s = true) :
    isInteger s = true ∧ isFloat s = true := by
  simp [isInteger, isFloat, h, decimalInteger_float h]

/-- C17: octal and hexadecimal integer texts are not all float texts (so a float field rejects them). -/
theorem octal_integer_not_float : isInteger "0o17".toList = true ∧ isFloat "0o17".toList = false := by
  decide +kernel

/-- C17: the text written for a boolean is a boolean text and reads back. -/
theorem boolean_roundtrip (b : Bool) :
    toBoolean (fromBoolean b) = some b ∧ classes (fromBoolean b) = [false, true, false, false] := by
  cases b <;> decide +kernel

/-- C17: the text written for an integer is classified as a number and as nothing else. -/
theorem integer_text_class (v : Int) : classes (fromInteger v) = [false, false, true, false] := by
  have h := (integer_roundtrip v 64).1
  have hd := classes_disjoint (fromInteger v)
  revert hd
  simp only [classes, h, Bool.true_or, List.countP_cons, List.countP_nil]
  cases isNull (fromInteger v) <;> cases isBoolean (fromInteger v) <;>
    cases decide (fromInteger v = mergeKey) <;> simp

/-! ### C48 -/

theorem null_iff (s : List Char) : isNull s = true ↔ NullText s := by
  simp [isNull, NullText, or_assoc]

theorem boolean_iff (s : List Char) (b : Bool) : toBoolean s = some b ↔ BoolText s b := by
  unfold toBoolean tryGetBoolean
  by_cases h1 : s = "true".toList ∨ s = "True".toList ∨ s = "TRUE".toList
  · rcases h1 with rfl | rfl | rfl <;> cases b <;> simp [BoolText]
  · by_cases h2 : s = "false".toList ∨ s = "False".toList ∨ s = "FALSE".toList
    · rcases h2 with rfl | rfl | rfl <;> cases b <;> simp [BoolText]
    · have e1 : ¬ ((decide (s = "true".toList) || decide (s = "True".toList) || decide (s = "TRUE".toList)) = true) := by
        simpa [or_assoc] using h1
      have e2 : ¬ ((decide (s = "false".toList) || decide (s = "False".toList) || decide (s = "FALSE".toList)) = true) := by
        simpa [or_assoc] using h2
      rw [if_neg e1, if_neg e2]
      cases b
      · simpa [BoolText] using h2
      · simpa [BoolText] using h1

theorem boolean_class_iff (s : List Char) : isBoolean s = true ↔ ∃ b, BoolText s b := by
  simp only [isBoolean, Option.isSome_iff_exists, ← boolean_iff, toBoolean]

theorem dec_iff {s : List Char} : plusOf isDec s = true ↔ s ≠ [] ∧ Digits s := by
  rw [plusOf_iff isDec_iff]
  rfl

theorem dropSign_cases (s : List Char) : ∃ sign, Sign sign ∧ s = sign ++ dropSign s := by
  unfold dropSign
  split
  · exact ⟨['-'], .inr (.inl rfl), rfl⟩
  · exact ⟨['+'], .inr (.inr rfl), rfl⟩
  · exact ⟨[], .inl rfl, rfl⟩

theorem dropSign_append {sign r : List Char} (hs : Sign sign) (hr : ∀ c r', r = c :: r' → c ≠ '-' ∧ c ≠ '+') :
    dropSign (sign ++ r) = r := by
  rcases hs with rfl | rfl | rfl
  · cases r with
    | nil => rfl
    | cons c r =>
      have := hr c r rfl
      simp only [List.nil_append]
      unfold dropSign
      split
      · rename_i h; simp at h; exact absurd h.1 this.1
      · rename_i h; simp at h; exact absurd h.1 this.2
      · rfl
  · rfl
  · rfl

theorem digit_not {c : Char} (h : IsDecDigit c) : c ≠ '-' ∧ c ≠ '+' ∧ c ≠ '.' ∧ c ≠ 'e' ∧ c ≠ 'E' := by
  refine ⟨?_, ?_, ?_, ?_, ?_⟩ <;> rintro rfl <;> revert h <;> decide

theorem floatExp_iff (s : List Char) : floatExp s = true ↔ Exponent s := by
  constructor
  · intro h
    cases s with
    | nil => exact .none
    | cons c r =>
      simp only [floatExp, Bool.and_eq_true, Bool.or_eq_true, decide_eq_true_eq] at h
      obtain ⟨sign, hs, he⟩ := dropSign_cases r
      obtain ⟨h1, h2⟩ := dec_iff.1 h.2
      rw [he]
      exact .some c sign _ h.1 hs h1 h2
  · intro h
    cases h with
    | none => rfl
    | some c sign ds hc hs h hd =>
      simp only [floatExp, Bool.and_eq_true, Bool.or_eq_true, decide_eq_true_eq]
      refine ⟨hc, ?_⟩
      rw [dropSign_append hs]
      · exact dec_iff.2 ⟨h, hd⟩
      · intro c r hr
        have := digit_not (hd c (by simp [hr]))
        exact ⟨this.1, this.2.1⟩

theorem takeWhile_digits (s : List Char) : Digits (s.takeWhile isDec) := by
  intro c hc
  exact (isDec_iff c).1 (List.all_eq_true.1 List.all_takeWhile c hc)

theorem split_digits {ds r : List Char} (hd : Digits ds) (hr : ∀ c r', r = c :: r' → ¬ IsDecDigit c) :
    (ds ++ r).takeWhile isDec = ds ∧ (ds ++ r).dropWhile isDec = r := by
  induction ds with
  | nil =>
    cases r with
    | nil => simp
    | cons c r =>
      have : isDec c = false := by
        have := hr c r rfl
        rw [← isDec_iff] at this
        simpa using this
      simp [this]
  | cons d ds ih =>
    have h1 : isDec d = true := (isDec_iff d).2 (hd d (by simp))
    have := ih (fun c hc => hd c (by simp [hc]))
    simp [h1, this]

theorem exponent_head {e : List Char} (he : Exponent e) : ∀ c r', e = c :: r' → c = 'e' ∨ c = 'E' := by
  intro c r' h
  cases he with
  | none => simp at h
  | some c' sign ds hc _ _ _ => simp at h; rw [← h.1]; exact hc

theorem exponent_not_digit {e : List Char} (he : Exponent e) : ∀ c r', e = c :: r' → ¬ IsDecDigit c := by
  intro c r' h hd
  have := digit_not hd
  rcases exponent_head he c r' h with h | h
  · exact this.2.2.2.1 h
  · exact this.2.2.2.2 h

theorem floatNumber_iff (s : List Char) :
    floatNumber s = true ↔ ∃ sign m e, s = sign ++ m ++ e ∧ Sign sign ∧ Mantissa m ∧ Exponent e := by
  constructor
  · intro h
    obtain ⟨sign, hs, he⟩ := dropSign_cases s
    unfold floatNumber at h
    simp only at h
    generalize dropSign s = t at h he
    subst he
    split at h
    · rename_i r
      simp only [Bool.and_eq_true, Bool.not_eq_true', List.isEmpty_eq_false_iff, floatExp_iff] at h
      refine ⟨sign, '.' :: r.takeWhile isDec, r.dropWhile isDec, by simp, hs, .fraction _ h.1 (takeWhile_digits r), h.2⟩
    · simp only [Bool.and_eq_true, Bool.not_eq_true', List.isEmpty_eq_false_iff] at h
      obtain ⟨h1, h2⟩ := h
      cases hd : t.dropWhile isDec with
      | nil =>
        refine ⟨sign, t.takeWhile isDec, [], ?_, hs, .whole _ h1 (takeWhile_digits t), .none⟩
        conv => lhs; rw [← List.takeWhile_append_dropWhile (p := isDec) (l := t), hd]
        simp
      | cons c r =>
        rw [hd] at h2
        by_cases hc : c = '.'
        · subst hc
          simp only [floatExp_iff] at h2
          refine ⟨sign, t.takeWhile isDec ++ '.' :: r.takeWhile isDec, r.dropWhile isDec, ?_, hs,
            .both _ _ h1 (takeWhile_digits t) (takeWhile_digits r), h2⟩
          conv => lhs; rw [← List.takeWhile_append_dropWhile (p := isDec) (l := t), hd]
          simp
        · have h3 : floatExp (c :: r) = true := by
            split at h2
            · rename_i h; simp at h; exact absurd h.1 hc
            · exact h2
          refine ⟨sign, t.takeWhile isDec, c :: r, ?_, hs, .whole _ h1 (takeWhile_digits t), (floatExp_iff _).1 h3⟩
          conv => lhs; rw [← List.takeWhile_append_dropWhile (p := isDec) (l := t), hd]
          simp
  · rintro ⟨sign, m, e, rfl, hs, hm, he⟩
    unfold floatNumber
    simp only
    rw [List.append_assoc, dropSign_append hs]
    · cases hm with
      | fraction ds h hd =>
        obtain ⟨h1, h2⟩ := split_digits hd (exponent_not_digit he)
        simp only [List.cons_append, h1, h2, (floatExp_iff e).2 he]
        simpa using h
      | whole _ h hd =>
        obtain ⟨h1, h2⟩ := split_digits hd (exponent_not_digit he)
        cases m with
        | nil => exact absurd rfl h
        | cons d ds =>
          have hne := digit_not (hd d (by simp))
          split
          · rename_i h; simp at h; exact absurd h.1 hne.2.2.1
          · simp only [h1, h2, Bool.and_eq_true]
            refine ⟨by simp, ?_⟩
            split
            · rcases exponent_head he '.' _ rfl with h | h <;> simp at h
            · exact (floatExp_iff _).2 he
      | both ds es h hd hes =>
        obtain ⟨h1, h2⟩ := split_digits (r := '.' :: (es ++ e)) hd (by
          intro c r' h hc; simp at h; exact (digit_not hc).2.2.1 h.1.symm)
        obtain ⟨_, h4⟩ := split_digits hes (exponent_not_digit he)
        cases ds with
        | nil => exact absurd rfl h
        | cons d ds =>
          have hne := digit_not (hd d (by simp))
          simp only [List.append_assoc, List.cons_append] at h1 h2 ⊢
          split
          · rename_i h; simp at h; exact absurd h.1 hne.2.2.1
          · simp only [h1, h2, h4, Bool.and_eq_true]
            exact ⟨by simp, (floatExp_iff _).2 he⟩
    · intro c r' hr
      cases hm with
      | fraction ds h hd => simp at hr; rw [← hr.1]; decide
      | whole _ h hd =>
        cases m with
        | nil => exact absurd rfl h
        | cons d ds =>
          simp at hr
          have hne := digit_not (hd d (by simp))
          rw [← hr.1]; exact ⟨hne.1, hne.2.1⟩
      | both ds es h hd hes =>
        cases ds with
        | nil => exact absurd rfl h
        | cons d ds =>
          simp at hr
          have hne := digit_not (hd d (by simp))
          rw [← hr.1]; exact ⟨hne.1, hne.2.1⟩

theorem floatInfinity_iff (s : List Char) :
    floatInfinity s = true ↔ ∃ sign i, s = sign ++ i ∧ Sign sign ∧ i ∈ [".inf", ".Inf", ".INF"].map String.toList := by
  have key : ∀ r : List Char, (decide (r = ".inf".toList) || decide (r = ".Inf".toList) || decide (r = ".INF".toList)) = true ↔
      r ∈ [".inf", ".Inf", ".INF"].map String.toList := by
    intro r
    simp only [Bool.or_eq_true, decide_eq_true_eq, List.map_cons, List.map_nil, List.mem_cons, List.not_mem_nil, or_false, or_assoc]
  unfold floatInfinity
  simp only
  rw [key]
  constructor
  · intro h
    obtain ⟨sign, hs, he⟩ := dropSign_cases s
    exact ⟨sign, _, he, hs, h⟩
  · rintro ⟨sign, i, rfl, hs, hi⟩
    rw [dropSign_append hs]
    · exact hi
    · intro c r hr
      have hall : ∀ i ∈ [".inf", ".Inf", ".INF"].map String.toList, i.head? = some '.' := by decide +kernel
      have := hall i hi
      rw [hr] at this
      simp at this
      rw [this]
      decide

theorem float_iff (s : List Char) : isFloat s = true ↔ FloatText s := by
  have hn : notANumber s = true ↔ s ∈ [".nan", ".NaN", ".NAN"].map String.toList := by
    simp only [notANumber, Bool.or_eq_true, decide_eq_true_eq, List.map_cons, List.map_nil, List.mem_cons, List.not_mem_nil,
      or_false, or_assoc]
  simp only [isFloat, Bool.or_eq_true, floatNumber_iff, floatInfinity_iff, hn]
  constructor
  · rintro ((⟨sign, m, e, rfl, hs, hm, he⟩ | ⟨sign, i, rfl, hs, hi⟩) | h)
    · exact .number sign m e hs hm he
    · exact .infinity sign i hs hi
    · exact .nan s h
  · rintro (⟨sign, m, e, hs, hm, he⟩ | ⟨sign, i, hs, hi⟩ | ⟨_, h⟩)
    · exact .inl (.inl ⟨sign, m, e, rfl, hs, hm, he⟩)
    · exact .inl (.inr ⟨sign, i, rfl, hs, hi⟩)
    · exact .inr h

/-- The classes of the schema package are those of the core schema of YAML 1.2. -/
theorem classification_is_core_schema (s : List Char) :
    (isNull s = true ↔ NullText s) ∧ (∀ b, toBoolean s = some b ↔ BoolText s b) ∧ (isBoolean s = true ↔ ∃ b, BoolText s b) ∧
      (isInteger s = true ↔ ∃ v, Denotes s v) ∧ (isFloat s = true ↔ FloatText s) :=
  ⟨null_iff s, boolean_iff s, boolean_class_iff s, isInteger_iff s, float_iff s⟩

example : FloatText ['-', '1', '.', '5', 'e', '+', '3'] :=
  .number ['-'] ['1', '.', '5'] ['e', '+', '3'] (.inr (.inl rfl)) (.both ['1'] ['5'] (by simp) (by unfold Digits; decide) (by unfold Digits; decide))
    (.some 'e' ['+'] ['3'] (.inl rfl) (.inr (.inr rfl)) (by simp) (by unfold Digits; decide))

/-! ### C68 -/

/-- **C68**: the texts which convert to an integer are the integer literals of Go with an optional sign whose number is in the range of the
bit size; the bit size 0 is 64. -/
theorem toInteger_iff (s : List Char) (bits : Nat) (v : Int) :
    toInteger s bits = .ok v ↔ GoInteger.Signed s v ∧ InRange (if bits = 0 then 64 else bits) v :=
  GoInteger.parseInt0_iff s (width bits) v (width_pos bits)

/-- **C68** for unsigned integers: no sign is accepted. -/
theorem toUnsignedInteger_iff (s : List Char) (bits n : Nat) :
    toUnsignedInteger s bits = .ok n ↔ GoInteger.Literal s n ∧ n < 2 ^ (if bits = 0 then 64 else bits) :=
  GoInteger.parseUint0_iff s (width bits) n

example : toInteger "-0x_7F".toList 8 = .ok (-127) :=
  (toInteger_iff _ 8 (-127)).2 ⟨.minus (n := 127) (.lettered (x := 'x') (base := 16) (by decide) (by decide)
    (.parted (by decide) (by decide) (.digit (by decide) (by decide) (.done _)))), by decide⟩

/-- The conversions accept texts which are no integers of the core schema (the classification rejects them): digits parted by
underscores, binary numbers, signed hexadecimal numbers, upper case prefixes. -/
theorem conversion_accepts_more : ∀ t ∈ ["1_000", "0b11", "-0x1F", "0XA"].map String.toList,
    (∃ v, toInteger t 64 = .ok v) ∧ isInteger t = false := by
  intro t ht
  simp only [List.map_cons, List.map_nil, List.mem_cons, List.not_mem_nil, or_false] at ht
  rcases ht with rfl | rfl | rfl | rfl
  · exact ⟨⟨1000, by decide +kernel⟩, by decide +kernel⟩
  · exact ⟨⟨3, by decide +kernel⟩, by decide +kernel⟩
  · exact ⟨⟨-31, by decide +kernel⟩, by decide +kernel⟩
  · exact ⟨⟨10, by decide +kernel⟩, by decide +kernel⟩

/-- Underscores only part digits: at the end, twice in a row, or before the first digit they are a syntax error. -/
theorem stray_underscores : ∀ t ∈ ["1_", "1__0", "_1", "0x1_", "0_"].map String.toList, toInteger t 64 = .error .syntax := by
  decide +kernel

end Verif.Props.Scalars
