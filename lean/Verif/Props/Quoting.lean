import Verif.Lemmas.GoInteger
import Verif.Lemmas.YamlChar
import Verif.Spec.Escapes

/-! C12, C13, C14: quoting of strings. -/

namespace Verif.Props.Quoting

open Verif.YamlChar

/-- Characters that a quoted scalar may contain literally: tab and everything from space on. -/
def Printable (c : Char) : Prop := c.toNat = 9 ∨ 32 ≤ c.toNat

theorem printable_iff (c : Char) : Printable c ↔ isJSONChar c = true := by
  have hv : c.toNat ≤ 0x10FFFF := by
    have hh : c.toNat.isValidChar := c.valid
    rcases hh with hh | hh <;> omega
  simp only [Printable, isJSONChar, Bool.or_eq_true, decide_eq_true_eq, Bool.and_eq_true]
  omega

/-- **C12.** Un-quoting the single-quoted form gives the string back exactly for the strings of printable
characters; all other strings are reported as an error. -/
theorem single_quote_roundtrip (s : List Char) :
    (convertFromSingle (convertToSingle s) = .ok s ↔ ∀ c ∈ s, Printable c) ∧
    (convertFromSingle (convertToSingle s) = .err ↔ ∃ c ∈ s, ¬ Printable c) := by
  rw [convertFromSingle_to]
  simp only [printable_iff]
  constructor
  · split <;> simp_all
  · split <;> simp_all

/-- **C12**, recognition: the single-quoted form is accepted by the parser's check of single-quoted text
exactly for the strings of printable characters. -/
theorem single_quoted_form_recognised (s : List Char) :
    isSingleQuotedString (convertToSingle s) = true ↔ ∀ c ∈ s, Printable c := by
  rw [isSingleQuotedString_to]
  simp [printable_iff]

example : ∀ c ∈ "it's\t''ok'".toList, Printable c := by
  simp [Printable]

/-- Control characters which have a one-letter escape: `\0 \a \b \t \n \v \f \r \e`. -/
def ShortEscape (c : Char) : Prop :=
  c.toNat ∈ [0, 7, 8, 9, 10, 11, 12, 13, 27]

/-- **C13 (partial).** Un-quoting the double-quoted form gives the string back for all strings whose control
characters have a one-letter escape.

Missing: the other control characters (0x01-0x06, 0x0E-0x1A, 0x1C-0x1F), which are written as `\xNN`; for them
the claim is false, see `double_quote_roundtrip_fails`. -/
theorem double_quote_roundtrip_partial (s : List Char) (h : ∀ c ∈ s, Printable c ∨ ShortEscape c) :
    convertFromDouble (convertToDouble s) = .ok s := by
  apply convertFromDouble_to
  intro c hc
  rcases h c hc with h | h
  · exact .inr ((printable_iff c).1 h)
  · left
    simp only [ShortEscape, List.mem_cons, List.not_mem_nil, or_false] at h
    rcases h with h | h | h | h | h | h | h | h | h <;> rw [toNat_eq h] <;> decide

example : ∀ c ∈ "a\n\"b\\ ü \t".toList, Printable c ∨ ShortEscape c := by
  simp [Printable, ShortEscape]

/-- **C13 is false in general**: one control character alone is not read back (error or panic), and followed by
two hexadecimal digits it is silently replaced by another character. -/
theorem double_quote_roundtrip_fails :
    convertFromDouble (convertToDouble [Char.ofNat 1]) = .errOrPanic ∧
    convertFromDouble (convertToDouble [Char.ofNat 1, '4', '1']) = .ok ['A', '4', '1'] := by
  decide +kernel

/-- **C14 (partial / exact).** The double-quoted form is accepted by the parser's check of double-quoted text
exactly for the strings without backspace.

Missing: the claim for strings with a backspace, which is false: the writer's escape `\b` is not in the
checker's table (chars.go:225). -/
theorem double_quoted_form_recognised_partial (s : List Char) :
    isDoubleQuotedString (convertToDouble s) = true ↔ ∀ c ∈ s, c ≠ Char.ofNat 8 := by
  rw [isDoubleQuotedString_to]
  simp only [List.all_eq_true, decide_eq_true_eq]
  constructor
  · intro h c hc he
    exact h c hc (by rw [he]; rfl)
  · intro h c hc he
    exact h c hc (toNat_eq he)

/-- **C14**: a string for which the double-quoted form is rejected. -/
theorem double_quoted_backspace_rejected :
    isDoubleQuotedString (convertToDouble ['a', Char.ofNat 8]) = false := by
  decide +kernel

/-- The quoted form never contains an unescaped double quote or a raw line break: the text between the quotes
stays on one line and inside the quotes. -/
theorem double_quoted_form_one_line (s : List Char) :
    ∀ c ∈ convertToDouble s, c ≠ '\n' ∧ c ≠ '\r' := by
  intro c hc
  simp only [convertToDouble, List.mem_flatMap] at hc
  obtain ⟨x, -, hc⟩ := hc
  cases h1 : escapeASCII x with
  | some e =>
    simp only [escapeCharacter, h1, Option.getD_some] at hc
    obtain ⟨l, hl, rfl⟩ := escapeASCII_some h1
    have ht : ∀ p ∈ escapeTable, p.2 ≠ '\n' ∧ p.2 ≠ '\r' := by decide
    simp only [List.mem_cons, List.not_mem_nil, or_false] at hc
    rcases hc with rfl | rfl
    · decide
    · exact ht _ hl
  | none =>
    have hne : x ≠ '\n' ∧ x ≠ '\r' := by
      constructor <;> rintro rfl <;> revert h1 <;> decide
    cases h2 : escapeUnicode x with
    | none =>
      simp only [escapeCharacter, h1, h2, Option.getD_none, List.mem_singleton] at hc
      subst hc; exact hne
    | some e =>
      simp only [escapeCharacter, h1, h2, Option.getD_some] at hc
      unfold escapeUnicode at h2
      split at h2
      · simp at h2
      · simp only [Option.some.injEq] at h2
        rename_i hj
        subst h2
        have hlt : x.toNat < 32 := by
          rw [← printable_iff] at hj
          simp only [Printable] at hj
          omega
        have hd : ∀ d : Fin 16, hexDigitChar d.val ≠ '\n' ∧ hexDigitChar d.val ≠ '\r' := by decide
        simp only [List.mem_cons, List.not_mem_nil, or_false] at hc
        rcases hc with rfl | rfl | rfl | rfl
        · decide
        · decide
        · exact hd ⟨x.toNat / 16, by omega⟩
        · exact hd ⟨x.toNat % 16, by omega⟩

/-- Does the text contain a backslash followed by a tab, read from left to right? -/
def EscapedTab : List Char → Prop
  | '\\' :: l :: s => l = '\t' ∨ EscapedTab s
  | _ :: s => EscapedTab s
  | [] => False

theorem table_meaning : ∀ p ∈ Escapes.table,
    unescapeASCII p.1 = some (Char.ofNat p.2) ∧ p.1 ≠ 'x' ∧ p.1 ≠ 'u' ∧ p.1 ≠ 'U' := by
  decide

theorem convertFromDouble_letter {l v : Char} (h0 : unescapeASCII l = some v) (h1 : l ≠ 'x') (h2 : l ≠ 'u')
    (h3 : l ≠ 'U') (t : List Char) : convertFromDouble ('\\' :: l :: t) = (convertFromDouble t).cons v := by
  rw [convertFromDouble_esc, unescapeCharacter_letter h1 h2 h3, h0]

/-- **C50 (partial).** The content of a double-quoted scalar is read as what YAML says it denotes.

Missing: escapes by number (`\xNN`, `\uNNNN`, `\UNNNNNNNN`; false, see `escape_by_number_misread`) and the escaped
tab (false, see `escaped_tab_rejected`). -/
theorem escapes_mean_partial (s t : List Char) (h : Escapes.Denotes s t) (ht : ¬ EscapedTab s) :
    convertFromDouble s = .ok t := by
  induction h with
  | nil => rw [convertFromDouble]
  | plain c hc h1 h2 h ih =>
    rw [convertFromDouble_plain h2 h1, if_pos ((printable_iff c).1 hc), ih]
    · rfl
    · intro hx
      exact ht (by
        rw [EscapedTab.eq_def]
        split
        · rename_i heq; simp only [List.cons.injEq] at heq; exact absurd heq.1 h2
        · rename_i heq; simp only [List.cons.injEq] at heq; rw [← heq.2]; exact hx
        · simp_all)
  | escape l n hl h ih =>
    obtain ⟨h0, h1, h2, h3⟩ := table_meaning _ hl
    rw [convertFromDouble_letter h0 h1 h2 h3, ih]
    · rfl
    · intro hx
      exact ht (by rw [EscapedTab]; exact .inr hx)
  | tab h ih =>
    exact absurd (by rw [EscapedTab]; exact .inl rfl) ht

example : Escapes.Denotes ['a', '\\', '/', '\\', 'N'] ['a', '/', Char.ofNat 0x85] :=
  .plain _ (by decide) (by decide) (by decide)
    (.escape '/' 0x2F (by decide) (.escape 'N' 0x85 (by decide) .nil))

/-- **C50**, the converse for letters: a letter which is not in YAML's table is rejected. -/
theorem unknown_escape_rejected (l : Char) (s : List Char) (h : ∀ n, (l, n) ∉ Escapes.table)
    (h1 : l ≠ 'x') (h2 : l ≠ 'u') (h3 : l ≠ 'U') : convertFromDouble ('\\' :: l :: s) = .err := by
  have h0 : unescapeASCII l = none := by
    unfold unescapeASCII
    split <;> first | rfl | exact absurd (by decide) (h 0x00) | skip
    · exact absurd (by decide) (h 0x07)
    · exact absurd (by decide) (h 0x08)
    · exact absurd (by decide) (h 0x09)
    · exact absurd (by decide) (h 0x0A)
    · exact absurd (by decide) (h 0x0B)
    · exact absurd (by decide) (h 0x0C)
    · exact absurd (by decide) (h 0x0D)
    · exact absurd (by decide) (h 0x1B)
    · exact absurd (by decide) (h 0x20)
    · exact absurd (by decide) (h 0x22)
    · exact absurd (by decide) (h 0x2F)
    · exact absurd (by decide) (h 0x5C)
    · exact absurd (by decide) (h 0x85)
    · exact absurd (by decide) (h 0xA0)
    · exact absurd (by decide) (h 0x2028)
    · exact absurd (by decide) (h 0x2029)
  rw [convertFromDouble_esc, unescapeCharacter_letter h1 h2 h3, h0]

example : ∀ n, ('q', n) ∉ Escapes.table := by simp [Escapes.table]

/-- **C50 is false** for the escaped tab … -/
theorem escaped_tab_rejected :
    Escapes.Denotes ['\\', '\t'] ['\t'] ∧ convertFromDouble ['\\', '\t'] = .err :=
  ⟨.tab .nil, by decide +kernel⟩

/-- … and for escapes by number: `\x41` denotes `A`; `\x4142` is read as `B42`. -/
theorem escape_by_number_misread :
    convertFromDouble ['\\', 'x', '4', '1'] = .errOrPanic ∧
      convertFromDouble ['\\', 'x', '4', '1', '4', '2'] = .ok ['B', '4', '2'] := by
  decide +kernel

/-- A number which is no character is read as U+FFFD. -/
theorem surrogate_escape_replaced : convertFromDouble "\\u0000d800".toList = .ok (Char.ofNat 0xFFFD :: "d800".toList) := by
  decide +kernel

/-- The letters of escapes by number, and how many digits follow. -/
def byNumber : List (Char × Nat) := [('x', 2), ('u', 4), ('U', 8)]

theorem convertFromDouble_number {l : Char} {k : Nat} (h : (l, k) ∈ byNumber) (t : List Char) :
    convertFromDouble ('\\' :: l :: t) = match unescapeHex k t with
      | .err => .err
      | .errOrPanic => .errOrPanic
      | .ok v r => (convertFromDouble r).cons v := by
  rw [convertFromDouble_esc]
  simp only [byNumber, List.mem_cons, Prod.mk.injEq, List.not_mem_nil, or_false] at h
  rcases h with ⟨rfl, rfl⟩ | ⟨rfl, rfl⟩ | ⟨rfl, rfl⟩ <;> rfl

/-- **C50 is false** for every escape by number near the end of a scalar: with fewer characters behind the digits than there are
digits it is never read … -/
theorem number_escape_fails (l : Char) (k : Nat) (h : (l, k) ∈ byNumber) (ds t : List Char) (hk : ds.length = k)
    (hd : ∀ c ∈ ds, isHexDigit c = true) (ht : t.length < k) : convertFromDouble ('\\' :: l :: (ds ++ t)) = .errOrPanic := by
  rw [convertFromDouble_number h]
  have h1 : unescapeHex k (ds ++ t) = .errOrPanic := by
    subst hk
    simp only [unescapeHex, List.length_append, List.take_left, List.drop_left]
    rw [if_neg (by omega), if_neg (by simpa [areHexDigits] using hd), if_pos ht]
  rw [h1]

/-- … and elsewhere its digits are of no account. -/
theorem number_escape_ignored (l : Char) (k : Nat) (h : (l, k) ∈ byNumber) (ds ds' t : List Char) (hk : ds.length = k) (hk' : ds'.length = k)
    (hd : ∀ c ∈ ds, isHexDigit c = true) (hd' : ∀ c ∈ ds', isHexDigit c = true) :
    convertFromDouble ('\\' :: l :: (ds ++ t)) = convertFromDouble ('\\' :: l :: (ds' ++ t)) := by
  have key : ∀ {ds : List Char}, ds.length = k → (∀ c ∈ ds, isHexDigit c = true) → unescapeHex k (ds ++ t) =
      if t.length < k then .errOrPanic else match parseEscapedHexDigits (t.take k) with
        | none => .err
        | some c => .ok c t := by
    intro ds hk hd
    subst hk
    simp only [unescapeHex, List.length_append, List.take_left, List.drop_left]
    rw [if_neg (by omega), if_neg (by simpa [areHexDigits] using hd)]
    cases parseEscapedHexDigits (List.take ds.length t) <;> rfl
  rw [convertFromDouble_number h, convertFromDouble_number h, key hk hd, key hk' hd']

/-- **C50**, the converse for numbers: without the digits the scalar is refused. -/
theorem number_escape_digits (l : Char) (k : Nat) (h : (l, k) ∈ byNumber) (t : List Char)
    (ht : t.length < k ∨ ∃ c ∈ t.take k, isHexDigit c = false) : convertFromDouble ('\\' :: l :: t) = .err := by
  rw [convertFromDouble_number h]
  have h1 : unescapeHex k t = .err := by
    unfold unescapeHex
    rcases ht with ht | ⟨c, hc, hx⟩
    · rw [if_pos ht]
    · by_cases hl : t.length < k
      · rw [if_pos hl]
      · rw [if_neg hl, if_pos]
        rw [Bool.not_eq_true', Bool.eq_false_iff]
        intro ha
        have := List.all_eq_true.1 ha c hc
        rw [hx] at this
        cases this
  rw [h1]

example : convertFromDouble "\\u00e9".toList = .errOrPanic ∧
    convertFromDouble "\\u00e90041".toList = convertFromDouble "\\uabcd0041".toList ∧ convertFromDouble "\\u00g9".toList = .err :=
  ⟨number_escape_fails 'u' 4 (by decide) "00e9".toList [] rfl (by decide) (by decide),
    number_escape_ignored 'u' 4 (by decide) "00e9".toList "abcd".toList "0041".toList rfl rfl (by decide) (by decide),
    number_escape_digits 'u' 4 (by decide) "00g9".toList (.inr ⟨'g', by decide, by decide⟩)⟩

/-- **C50**, what an escape by number reads: the characters *behind* its digits have to be a hexadecimal number as well (a sign in front
of it is accepted), or the scalar is refused. -/
theorem number_escape_neighbour (l : Char) (k : Nat) (h : (l, k) ∈ byNumber) (ds : List Char) (a : Char) (b t : List Char)
    (hk : ds.length = k) (hk' : (a :: b).length = k) (hd : ∀ c ∈ ds, isHexDigit c = true) (hb : ∃ c ∈ b, ¬ CoreSchema.IsHexDigit c) :
    convertFromDouble ('\\' :: l :: (ds ++ (a :: b ++ t))) = .err := by
  rw [convertFromDouble_number h]
  have hbase : ∀ (r : List Char) (n : Nat) (seen : Bool), (∃ c ∈ r, ¬ CoreSchema.IsHexDigit c) → ∀ x,
      Strconv.digitLoop 16 (2 ^ 32 - 1) false r n seen ≠ .ok x := by
    intro r
    induction r with
    | nil => rintro n seen ⟨c, hc, _⟩; cases hc
    | cons e r ih =>
      rintro n seen ⟨c, hc, hx⟩ ⟨m, s'⟩ he
      obtain ⟨h1, _, _, h2⟩ := GoInteger.digitLoop_cons_ok (by decide) (.inr rfl) he
      rcases List.mem_cons.1 hc with rfl | hc
      · exact hx h1
      · exact ih _ _ ⟨c, hc, hx⟩ _ h2
  have hu : ∀ r : List Char, (∃ c ∈ r, ¬ CoreSchema.IsHexDigit c) → ∃ e, Strconv.parseUintBase 16 r 32 = .error e := by
    intro r hr
    unfold Strconv.parseUintBase
    by_cases hn : r = []
    · exact ⟨_, by rw [if_pos hn]⟩
    · rw [if_neg hn]
      cases hl : Strconv.digitLoop 16 (2 ^ 32 - 1) false r 0 false with
      | error e => exact ⟨e, rfl⟩
      | ok p => exact absurd hl (hbase r 0 false hr p)
  have hp : parseEscapedHexDigits (a :: b) = none := by
    have hab : ∃ c ∈ a :: b, ¬ CoreSchema.IsHexDigit c := by
      obtain ⟨c, hc, hx⟩ := hb
      exact ⟨c, List.mem_cons_of_mem _ hc, hx⟩
    unfold parseEscapedHexDigits Strconv.parseIntBase Strconv.parseIntWith
    obtain ⟨e1, h1⟩ := hu b hb
    obtain ⟨e2, h2⟩ := hu (a :: b) hab
    split
    · rfl
    · next v hv =>
      exfalso
      split at hv
      · cases hv
      · next he => injection he with _ he; subst he; simp [h1] at hv
      · next he => injection he with _ he; subst he; simp [h1] at hv
      · simp [h2] at hv
  have h1 : unescapeHex k (ds ++ (a :: b ++ t)) = .err := by
    subst hk
    simp only [unescapeHex, List.length_append, List.take_left, List.drop_left]
    rw [if_neg (by omega), if_neg (by simpa [areHexDigits] using hd), if_neg (by omega)]
    rw [← hk', List.take_left, hp]
  rw [h1]

example : convertFromDouble "\\x410_".toList = .err :=
  number_escape_neighbour 'x' 2 (by decide) "41".toList '0' ['_'] [] rfl rfl (by decide) ⟨'_', by decide, by decide⟩

end Verif.Props.Quoting
