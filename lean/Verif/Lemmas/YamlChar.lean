import Verif.Model.YamlChar

set_option linter.unusedSimpArgs false

namespace Verif.YamlChar

theorem toNat_eq {c : Char} {n : Nat} (h : c.toNat = n) : c = Char.ofNat n := by
  rw [← h, Char.ofNat_toNat]

/-! ### single quotes -/

theorem fromSingle_cons_json {c : Char} (hq : c ≠ '\'') (r : List Char) :
    fromSingle false (c :: r) = if isJSONChar c then (fromSingle false r).cons c else .err := by
  cases h : isJSONChar c <;> simp [fromSingle, hq, h]

theorem convertFromSingle_to (s : List Char) :
    convertFromSingle (convertToSingle s) =
      if s.all isJSONChar then .ok s else .err := by
  unfold convertFromSingle
  induction s with
  | nil => simp [convertToSingle, fromSingle]
  | cons c s ih =>
    have hcons : convertToSingle (c :: s) =
        (if c = '\'' then ['\'', '\''] else [c]) ++ convertToSingle s := by simp [convertToSingle]
    rw [hcons]
    by_cases hc : c = '\''
    · subst hc
      simp only [if_true, List.cons_append, List.nil_append, fromSingle, Bool.false_eq_true, if_false, ih]
      have : isJSONChar '\'' = true := by decide
      simp only [List.all_cons, this, Bool.true_and]
      split <;> simp [Outcome.cons]
    · simp only [hc, if_false, List.cons_append, List.nil_append]
      rw [fromSingle_cons_json hc, ih]
      simp only [List.all_cons]
      by_cases h1 : isJSONChar c = true <;> by_cases h2 : s.all isJSONChar = true <;> simp [Outcome.cons, h1, h2]

theorem isSingleQuotedString_to (s : List Char) :
    isSingleQuotedString (convertToSingle s) = s.all isJSONChar := by
  induction s with
  | nil => rfl
  | cons c s ih =>
    have hcons : convertToSingle (c :: s) =
        (if c = '\'' then ['\'', '\''] else [c]) ++ convertToSingle s := by simp [convertToSingle]
    rw [hcons]
    by_cases hc : c = '\''
    · subst hc
      have : isJSONChar '\'' = true := by decide
      simp [isSingleQuotedString, ih, this]
    · simp only [hc, if_false, List.cons_append, List.nil_append, List.all_cons]
      rw [isSingleQuotedString.eq_def]
      split
      · rename_i h; simp at h
      · rename_i h; simp at h; exact absurd h.1 hc
      · rename_i h; simp at h; exact absurd h.1 hc
      · rename_i h; simp at h; obtain ⟨rfl, rfl⟩ := h; rw [ih]

/-! ### double quotes -/

theorem convertToDouble_cons (c : Char) (s : List Char) :
    convertToDouble (c :: s) = (escapeCharacter c).getD [c] ++ convertToDouble s := by
  simp [convertToDouble]

theorem convertFromDouble_esc (r : List Char) :
    convertFromDouble ('\\' :: r) =
      match unescapeCharacter r with
      | .err => .err
      | .errOrPanic => .errOrPanic
      | .ok v r' => (convertFromDouble r').cons v := by
  rw [convertFromDouble]
  simp only [if_true]
  split <;> simp_all

theorem convertFromDouble_plain {c : Char} (h1 : c ≠ '\\') (h2 : c ≠ '"') (r : List Char) :
    convertFromDouble (c :: r) = if isJSONChar c then (convertFromDouble r).cons c else .err := by
  rw [convertFromDouble]
  cases h : isJSONChar c <;> simp [h1, h2, h]

theorem escapeASCII_some {c : Char} {e : List Char} (h : escapeASCII c = some e) :
    ∃ l, (c.toNat, l) ∈ escapeTable ∧ e = ['\\', l] := by
  simp only [escapeASCII, Option.map_eq_some_iff] at h
  obtain ⟨l, hl, rfl⟩ := h
  exact ⟨l, List.lookup_eq_some_iff.1 hl |> fun ⟨l1, l2, h, _⟩ => by rw [h]; simp, rfl⟩

theorem table_unescape : ∀ p ∈ escapeTable,
    unescapeASCII p.2 = some (Char.ofNat p.1) ∧ p.2 ≠ 'x' ∧ p.2 ≠ 'u' ∧ p.2 ≠ 'U' ∧
      (singleEscapedCharacters.contains p.2 = (p.1 ≠ 8)) := by
  decide

theorem unescapeCharacter_letter {l : Char} (h1 : l ≠ 'x') (h2 : l ≠ 'u') (h3 : l ≠ 'U') (t : List Char) :
    unescapeCharacter (l :: t) = match unescapeASCII l with
      | none => .err
      | some v => .ok v t := by
  rw [unescapeCharacter.eq_def]
  split
  · rename_i h; simp at h
  · rename_i h; simp at h; exact absurd h.1 h1
  · rename_i h; simp at h; exact absurd h.1 h2
  · rename_i h; simp at h; exact absurd h.1 h3
  · rename_i h; simp at h; obtain ⟨rfl, rfl⟩ := h; rfl

theorem escapedRest_letter {l : Char} (h1 : l ≠ 'x') (h2 : l ≠ 'u') (h3 : l ≠ 'U') (t : List Char) :
    escapedRest (l :: t) = if singleEscapedCharacters.contains l then some t else none := by
  rw [escapedRest.eq_def]
  split
  · rename_i h; simp at h
  · rename_i h; simp at h; exact absurd h.1 h1
  · rename_i h; simp at h; exact absurd h.1 h2
  · rename_i h; simp at h; exact absurd h.1 h3
  · rename_i h; simp at h; obtain ⟨rfl, rfl⟩ := h; rfl

/-- Un-escaping a short escape. -/
theorem convertFromDouble_short {c : Char} {e : List Char} (h : escapeASCII c = some e) (t : List Char) :
    convertFromDouble (e ++ t) = (convertFromDouble t).cons c := by
  obtain ⟨l, hl, rfl⟩ := escapeASCII_some h
  obtain ⟨h0, h1, h2, h3, -⟩ := table_unescape _ hl
  simp only [List.cons_append, List.nil_append]
  rw [convertFromDouble_esc, unescapeCharacter_letter h1 h2 h3, h0]
  simp

theorem isDoubleQuotedString_esc (r : List Char) :
    isDoubleQuotedString ('\\' :: r) =
      match escapedRest r with
      | none => false
      | some r' => isDoubleQuotedString r' := by
  rw [isDoubleQuotedString]
  simp only [if_true]
  split <;> simp_all

theorem isDoubleQuotedString_plain {c : Char} (h1 : c ≠ '\\') (h2 : c ≠ '"') (r : List Char) :
    isDoubleQuotedString (c :: r) = (isJSONChar c && isDoubleQuotedString r) := by
  rw [isDoubleQuotedString]
  simp [h1, h2]

theorem isDoubleQuotedString_short {c : Char} {e : List Char} (h : escapeASCII c = some e)
    (t : List Char) :
    isDoubleQuotedString (e ++ t) = (c.toNat ≠ 8 && isDoubleQuotedString t) := by
  obtain ⟨l, hl, rfl⟩ := escapeASCII_some h
  obtain ⟨-, h1, h2, h3, h4⟩ := table_unescape _ hl
  simp only [List.cons_append, List.nil_append]
  rw [isDoubleQuotedString_esc, escapedRest_letter h1 h2 h3]
  simp only [eq_iff_iff] at h4
  by_cases h8 : c.toNat = 8
  · have : ¬ (singleEscapedCharacters.contains l = true) := by rw [h4]; simp [h8]
    rw [if_neg this]; simp [h8]
  · have : singleEscapedCharacters.contains l = true := by rw [h4]; exact h8
    rw [if_pos this]; simp [h8]

theorem escapeASCII_none_not_special {c : Char} (h : escapeASCII c = none) : c ≠ '\\' ∧ c ≠ '"' := by
  constructor <;> rintro rfl <;> revert h <;> decide

theorem hexDigit_lt {d : Nat} (h : d < 16) : isHexDigit (hexDigitChar d) = true := by
  have : ∀ d : Fin 16, isHexDigit (hexDigitChar d.val) = true := by decide
  exact this ⟨d, h⟩

theorem isDoubleQuotedString_hex {c : Char} {e : List Char} (h : escapeUnicode c = some e)
    (t : List Char) : isDoubleQuotedString (e ++ t) = isDoubleQuotedString t := by
  unfold escapeUnicode at h
  split at h
  · simp at h
  · rename_i hj
    simp only [Option.some.injEq] at h
    subst h
    have hlt : c.toNat < 32 := by
      simp only [isJSONChar, Bool.or_eq_true, decide_eq_true_eq, Bool.and_eq_true, not_or, not_and] at hj
      have hv : c.toNat ≤ 0x10FFFF := by
        have := c.valid
        have hh : c.toNat.isValidChar := this
        rcases hh with hh | hh <;> omega
      have := hj.2
      omega
    simp only [List.cons_append, List.nil_append]
    rw [isDoubleQuotedString_esc]
    have : escapedRest ('x' :: hexDigitChar (c.toNat / 16) :: hexDigitChar (c.toNat % 16) :: t) = some t := by
      have hl : ¬ (t.length + 1 + 1 < 2) := by omega
      simp [escapedRest, areHexDigits, hexDigit_lt (show c.toNat / 16 < 16 by omega),
        hexDigit_lt (show c.toNat % 16 < 16 by omega), hl]
    rw [this]

theorem isDoubleQuotedString_to (s : List Char) :
    isDoubleQuotedString (convertToDouble s) = s.all (fun c => c.toNat ≠ 8) := by
  induction s with
  | nil => simp [convertToDouble]; rw [isDoubleQuotedString]
  | cons c s ih =>
    rw [convertToDouble_cons]
    cases h1 : escapeASCII c with
    | some e =>
      simp only [escapeCharacter, h1, Option.getD_some]
      rw [isDoubleQuotedString_short h1, ih]
      simp
    | none =>
      have h8 : c.toNat ≠ 8 := by
        intro h8; rw [toNat_eq h8] at h1; revert h1; decide
      cases h2 : escapeUnicode c with
      | some e =>
        simp only [escapeCharacter, h1, h2, Option.getD_some]
        rw [isDoubleQuotedString_hex h2, ih]
        simp [h8]
      | none =>
        have hj : isJSONChar c = true := by
          unfold escapeUnicode at h2
          split at h2
          · assumption
          · simp at h2
        simp only [escapeCharacter, h1, h2, Option.getD_none, List.cons_append, List.nil_append]
        obtain ⟨hb, hq⟩ := escapeASCII_none_not_special h1
        rw [isDoubleQuotedString_plain hb hq, ih]
        simp [hj, h8]

/-- characters that are written by a short escape or as they are. -/
theorem convertFromDouble_to (s : List Char)
    (h : ∀ c ∈ s, (escapeASCII c).isSome ∨ isJSONChar c = true) :
    convertFromDouble (convertToDouble s) = .ok s := by
  induction s with
  | nil => simp [convertToDouble]; rw [convertFromDouble]
  | cons c s ih =>
    have ih' := ih (fun c' hc' => h c' (by simp [hc']))
    rw [convertToDouble_cons]
    cases h1 : escapeASCII c with
    | some e =>
      simp only [escapeCharacter, h1, Option.getD_some]
      rw [convertFromDouble_short h1, ih']
      rfl
    | none =>
      have hj : isJSONChar c = true := by
        rcases h c (by simp) with h' | h'
        · simp [h1] at h'
        · exact h'
      simp only [escapeCharacter, h1, escapeUnicode, hj, if_true, Option.getD_none, List.cons_append,
        List.nil_append]
      obtain ⟨hb, hq⟩ := escapeASCII_none_not_special h1
      rw [convertFromDouble_plain hb hq, ih']
      simp [hj, Outcome.cons]

end Verif.YamlChar
