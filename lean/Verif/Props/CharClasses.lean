import Verif.Spec.CharClasses
import Verif.Lemmas.YamlChar
import Verif.Model.Lexer
import Mathlib.Tactic.IntervalCases

/-! C63: the character classes (`engines/yayamls/yamlchar/chars.go`, `charset.go`) are those of the YAML specification. -/

namespace Verif.Props.CharClasses

open Verif.YamlChar Verif.CharClasses

theorem digit_iff (c : Char) : isDigit c = true ↔ Digit c := by
  constructor
  · intro h
    simp only [isDigit, Bool.and_eq_true, decide_eq_true_eq, show '0'.toNat = 48 from rfl, show '9'.toNat = 57 from rfl] at h
    obtain ⟨h1, h2⟩ := h
    have : c = Char.ofNat c.toNat := toNat_eq rfl
    rw [this]
    generalize c.toNat = n at *
    interval_cases n <;> simp [Digit] <;> decide
  · intro h
    simp [Digit] at h
    rcases h with h | h | h | h | h | h | h | h | h | h <;> subst h <;> decide

theorem letter_iff (c : Char) : isASCIILetter c = true ↔ Letter c := by
  constructor
  · intro h
    simp only [isASCIILetter, Bool.or_eq_true, Bool.and_eq_true, decide_eq_true_eq, show 'A'.toNat = 65 from rfl, show 'Z'.toNat = 90 from rfl,
      show 'a'.toNat = 97 from rfl, show 'z'.toNat = 122 from rfl] at h
    have : c = Char.ofNat c.toNat := toNat_eq rfl
    rw [this]
    generalize c.toNat = n at *
    rcases h with ⟨h1, h2⟩ | ⟨h1, h2⟩ <;> interval_cases n <;> unfold Letter <;> decide
  · have : ∀ c ∈ "ABCDEFGHIJKLMNOPQRSTUVWXYZabcdefghijklmnopqrstuvwxyz".toList, isASCIILetter c = true := by decide
    exact this c

theorem hex_iff (c : Char) : isHexDigit c = true ↔ Hex c := by
  constructor
  · intro h
    simp only [isHexDigit, Bool.or_eq_true, digit_iff, Bool.and_eq_true, decide_eq_true_eq, show 'A'.toNat = 65 from rfl, show 'F'.toNat = 70 from rfl,
      show 'a'.toNat = 97 from rfl, show 'f'.toNat = 102 from rfl] at h
    rcases h with (h | ⟨h1, h2⟩) | ⟨h1, h2⟩
    · have : ∀ c ∈ "0123456789".toList, c ∈ "0123456789ABCDEFabcdef".toList := by decide
      exact this c h
    all_goals
      have : c = Char.ofNat c.toNat := toNat_eq rfl
      rw [this]
      generalize c.toNat = n at *
      interval_cases n <;> unfold Hex <;> decide
  · have : ∀ c ∈ "0123456789ABCDEFabcdef".toList, isHexDigit c = true := by decide
    exact this c

theorem json_iff (c : Char) : isJSONChar c = true ↔ JsonChar c := by
  have h1 : c = '\t' ↔ c.toNat = 9 := ⟨fun h => by subst h; rfl, fun h => by rw [toNat_eq h]⟩
  have h2 : c.toNat ≤ 0x10FFFF := by have := c.valid; simp only [UInt32.isValidChar, Nat.isValidChar] at this; have e : c.toNat = c.val.toNat := rfl; omega
  simp only [isJSONChar, JsonChar, Bool.or_eq_true, Bool.and_eq_true, decide_eq_true_eq, h1]
  omega

theorem flow_iff (c : Char) : isFlowIndicatorChar c = true ↔ FlowIndicator c := by
  simp [isFlowIndicatorChar, FlowIndicator, or_assoc]

theorem word_iff (c : Char) : (isDigit c || isASCIILetter c || decide (c = '-')) = true ↔ WordChar c := by
  simp [WordChar, digit_iff, letter_iff, or_assoc]

/-- **C63.** The class of decimal numbers: exactly the strings of decimal digits. -/
theorem decimal_exact (s : List Char) : conformsCharSet s .decimal = true ↔ ∀ c ∈ s, Digit c := by
  simp [conformsCharSet, isDecimal, digit_iff]

example : conformsCharSet "0459".toList .decimal = true := by decide

/-- C63.  The class of words: exactly the strings of word characters. -/
theorem word_exact (s : List Char) : conformsCharSet s .word = true ↔ ∀ c ∈ s, WordChar c := by
  simp only [conformsCharSet, isWord, List.all_eq_true, word_iff]

example : conformsCharSet "x-Z9".toList .word = true := by decide

theorem single_cons {c : Char} (h : c ≠ '\'') (r : List Char) : isSingleQuotedString (c :: r) = (isJSONChar c && isSingleQuotedString r) := by
  rw [isSingleQuotedString]
  · intro _ h1 _; exact h h1
  · exact h

/-- C63.  The class of texts in single quotes: exactly the strings of such characters, with every quote doubled. -/
theorem single_exact (s : List Char) : conformsCharSet s .singleQuoted = true ↔ Single s := by
  show isSingleQuotedString s = true ↔ _
  constructor
  · have key : ∀ (n : Nat) (s : List Char), s.length ≤ n → isSingleQuotedString s = true → Single s := by
      intro n
      induction n with
      | zero => intro s hn h; obtain rfl : s = [] := List.length_eq_zero_iff.1 (by omega); exact .nil
      | succ n ih =>
        intro s hn h
        cases s with
        | nil => exact .nil
        | cons c r =>
          simp only [List.length_cons] at hn
          by_cases hc : c = '\''
          · subst hc
            cases r with
            | nil => simp [isSingleQuotedString] at h
            | cons d r =>
              by_cases hd : d = '\''
              · subst hd
                rw [isSingleQuotedString] at h
                simp only [List.length_cons] at hn
                exact .quote (ih r (by omega) h)
              · rw [isSingleQuotedString] at h
                · cases h
                · rintro r' ⟨⟩; exact hd rfl
          · rw [single_cons hc, Bool.and_eq_true] at h
            exact .char ((json_iff _).1 h.1) hc (ih r (by omega) h.2)
    exact key _ s (Nat.le_refl _)
  · intro h
    induction h with
    | nil => rfl
    | @char c s h1 h2 _ ih => rw [single_cons h2, (json_iff _).2 h1, ih]; rfl
    | quote _ ih => rw [isSingleQuotedString]; exact ih

example : Single "it''s".toList := .char (.inr (by decide)) (by decide) (.char (.inr (by decide)) (by decide)
  (.quote (.char (.inr (by decide)) (by decide) .nil)))

/-! ### Escapes with a percent sign -/

/-- A predicate on strings which is computed as those of links and tags are. -/
structure Scans (f : List Char → Bool) (P : Char → Prop) : Prop where
  nil : f [] = true
  percent : ∀ a b r, f ('%' :: a :: b :: r) = (areHexDigits [a, b] && f r)
  short : ∀ r, r.length < 2 → f ('%' :: r) = false
  char : ∀ c r, c ≠ '%' → (f (c :: r) = true ↔ P c ∧ f r = true)
  free : ¬ P '%'

theorem Scans.iff {f : List Char → Bool} {P : Char → Prop} (h : Scans f P) (s : List Char) : f s = true ↔ Escaped P s := by
  constructor
  · have key : ∀ (n : Nat) (s : List Char), s.length ≤ n → f s = true → Escaped P s := by
      intro n
      induction n with
      | zero => intro s hn _; obtain rfl : s = [] := List.length_eq_zero_iff.1 (by omega); exact .nil
      | succ n ih =>
        intro s hn hs
        cases s with
        | nil => exact .nil
        | cons c r =>
          simp only [List.length_cons] at hn
          by_cases hc : c = '%'
          · subst hc
            match r, hn, hs with
            | [], _, hs => rw [h.short _ (by simp)] at hs; cases hs
            | [a], _, hs => rw [h.short _ (by simp)] at hs; cases hs
            | a :: b :: r, hn, hs =>
              rw [h.percent] at hs
              simp only [areHexDigits, List.all_cons, List.all_nil, Bool.and_true, Bool.and_eq_true, hex_iff] at hs
              exact .percent hs.1.1 hs.1.2 (ih r (by simp at hn; omega) hs.2)
          · rw [h.char _ _ hc] at hs
            exact .char hs.1 (ih r (by omega) hs.2)
    exact key _ s (Nat.le_refl _)
  · intro hs
    induction hs with
    | nil => exact h.nil
    | @char c s h1 _ ih => exact (h.char _ _ (by rintro rfl; exact h.free h1)).2 ⟨h1, ih⟩
    | percent h1 h2 _ ih =>
      rw [h.percent, ih]
      simp [areHexDigits, hex_iff, h1, h2]

/-- The characters which `IsURI` accepts. -/
def UriAccepted (c : Char) : Prop := (UriChar c ∨ c = '{' ∨ c = '}') ∧ c ≠ '(' ∧ c ≠ ')'

theorem uri_accepted (c : Char) :
    (isDigit c || isASCIILetter c || isFlowIndicatorChar c || uriOnlyChars.contains c) = true ↔ UriAccepted c := by
  have hd : Digit c → c ≠ '(' ∧ c ≠ ')' := by
    intro h; constructor <;> rintro rfl <;> revert h <;> unfold Digit <;> decide
  have hl : Letter c → c ≠ '(' ∧ c ≠ ')' := by
    intro h; constructor <;> rintro rfl <;> revert h <;> unfold Letter <;> decide
  simp only [Bool.or_eq_true, digit_iff, letter_iff, flow_iff, List.contains_iff_mem, UriAccepted, UriChar, WordChar]
  constructor
  · rintro (((h | h) | h) | h)
    · exact ⟨.inl (.inl (.inl h)), hd h⟩
    · exact ⟨.inl (.inl (.inr (.inl h))), hl h⟩
    · have : ∀ c ∈ ",[]{}".toList, (c ∈ "#;/?:@&=+$,_.!~*'()[]".toList ∨ c = '{' ∨ c = '}') ∧ c ≠ '(' ∧ c ≠ ')' := by decide
      obtain ⟨h1, h2⟩ := this c h
      exact ⟨h1.imp_left .inr, h2⟩
    · have : ∀ c ∈ uriOnlyChars, (c = '-' ∨ c ∈ "#;/?:@&=+$,_.!~*'()[]".toList) ∧ c ≠ '(' ∧ c ≠ ')' := by decide
      obtain ⟨h1, h2⟩ := this c h
      exact ⟨.inl (h1.imp (fun h => .inr (.inr h)) id), h2⟩
  · rintro ⟨((h | h | h) | h) | h, h1, h2⟩
    · exact .inl (.inl (.inl h))
    · exact .inl (.inl (.inr h))
    · subst h; right; decide
    · have : ∀ c ∈ "#;/?:@&=+$,_.!~*'()[]".toList, c ≠ '(' → c ≠ ')' → c ∈ ",[]{}".toList ∨ c ∈ uriOnlyChars := by decide
      exact (this c h h1 h2).imp .inr id
    · left; right
      rcases h with rfl | rfl <;> unfold FlowIndicator <;> decide

theorem uri_scans : Scans isURI UriAccepted where
  nil := rfl
  percent a b r := by rw [isURI]
  short r h := by
    match r, h with
    | [], _ => rfl
    | [a], _ => rfl
  char c r h := by
    rw [isURI, Bool.and_eq_true, uri_accepted]
    · rintro a b r' h1; exact absurd h1 h
    · exact h
  free := by
    rintro ⟨(h | h) | h, -⟩
    · rcases h with h | h | h <;> revert h <;> (try unfold Digit) <;> (try unfold Letter) <;> decide
    · revert h; decide
    · revert h; decide

/-- **C63 (partial).** The class of links, for strings without parentheses and braces.  Missing: parentheses, which are refused,
and braces, which are accepted (see `parenthesis_refused`, `brace_accepted`). -/
theorem uri_exact_partial (s : List Char) (hs : ∀ c ∈ s, c ∉ ['(', ')', '{', '}']) :
    conformsCharSet s .uri = true ↔ Escaped UriChar s := by
  show isURI s = true ↔ _
  rw [uri_scans.iff]
  have hx : ∀ {a}, Hex a → a ∉ ['(', ')', '{', '}'] := by
    intro a h hh
    simp at hh
    rcases hh with rfl | rfl | rfl | rfl <;> revert h <;> unfold Hex <;> decide
  constructor
  · intro h
    induction h with
    | nil => exact .nil
    | @char c s h1 _ ih =>
      have hc := hs c (by simp)
      simp at hc
      refine .char ?_ (ih fun c hc => hs c (by simp [hc]))
      rcases h1.1 with h | h | h
      · exact h
      · exact absurd h hc.2.2.1
      · exact absurd h hc.2.2.2
    | percent h1 h2 _ ih => exact .percent h1 h2 (ih fun c hc => hs c (by simp [hc]))
  · intro h
    induction h with
    | nil => exact .nil
    | @char c s h1 _ ih =>
      have hc := hs c (by simp)
      simp at hc
      exact .char ⟨.inl h1, hc.1, hc.2.1⟩ (ih fun c hc => hs c (by simp [hc]))
    | percent h1 h2 _ ih => exact .percent h1 h2 (ih fun c hc => hs c (by simp [hc]))

example : Escaped UriChar "a%2F?".toList ∧ ∀ c ∈ "a%2F?".toList, c ∉ ['(', ')', '{', '}'] :=
  ⟨.char (.inl (.inr (.inl (by unfold Letter; decide)))) (.percent (by unfold Hex; decide) (by unfold Hex; decide)
    (.char (.inr (by decide)) .nil)), by decide⟩

/-- C63 fails for links with parentheses: they are refused. -/
theorem parenthesis_refused : Escaped UriChar ['('] ∧ conformsCharSet ['('] .uri = false :=
  ⟨.char (.inr (by decide)) .nil, by decide⟩

/-- C63 fails for links with braces: they are accepted. -/
theorem brace_accepted : ¬ Escaped UriChar ['{'] ∧ conformsCharSet ['{'] .uri = true := by
  refine ⟨?_, by decide⟩
  intro h
  cases h with
  | char h =>
    rcases h with (h | h | h) | h <;> revert h <;> (try unfold Digit) <;> (try unfold Letter) <;> decide

/-- The characters which `IsTagString` accepts. -/
def TagAccepted (c : Char) : Prop := TagChar c ∧ c ∉ ['-', '(', ')']

theorem tag_accepted (c : Char) : (isDigit c || isASCIILetter c || tagOnlyChars.contains c) = true ↔ TagAccepted c := by
  have hd : ∀ c ∈ "0123456789".toList, c ≠ '!' ∧ ¬ c ∈ ",[]{}".toList ∧ c ∉ ['-', '(', ')'] := by decide
  have hl : ∀ c ∈ "ABCDEFGHIJKLMNOPQRSTUVWXYZabcdefghijklmnopqrstuvwxyz".toList,
      c ≠ '!' ∧ ¬ c ∈ ",[]{}".toList ∧ c ∉ ['-', '(', ')'] := by decide
  simp only [Bool.or_eq_true, digit_iff, letter_iff, List.contains_iff_mem, TagAccepted, TagChar, UriChar, WordChar]
  constructor
  · rintro ((h | h) | h)
    · obtain ⟨h1, h2, h3⟩ := hd c h
      exact ⟨⟨.inl (.inl h), h1, h2⟩, h3⟩
    · obtain ⟨h1, h2, h3⟩ := hl c h
      exact ⟨⟨.inl (.inr (.inl h)), h1, h2⟩, h3⟩
    · have : ∀ c ∈ tagOnlyChars, c ∈ "#;/?:@&=+$,_.!~*'()[]".toList ∧ c ≠ '!' ∧ ¬ c ∈ ",[]{}".toList ∧ c ∉ ['-', '(', ')'] := by decide
      obtain ⟨h0, h1, h2, h3⟩ := this c h
      exact ⟨⟨.inr h0, h1, h2⟩, h3⟩
  · rintro ⟨⟨(h | h | h) | h, h1, h2⟩, h3⟩
    · exact .inl (.inl h)
    · exact .inl (.inr h)
    · subst h; simp at h3
    · have : ∀ c ∈ "#;/?:@&=+$,_.!~*'()[]".toList, c ≠ '!' → ¬ c ∈ ",[]{}".toList → c ∉ ['-', '(', ')'] → c ∈ tagOnlyChars := by decide
      exact .inr (this c h h1 h2 h3)

theorem tag_scans : Scans isTagString TagAccepted where
  nil := rfl
  percent a b r := by rw [isTagString]
  short r h := by
    match r, h with
    | [], _ => rfl
    | [a], _ => rfl
  char c r h := by
    rw [isTagString, Bool.and_eq_true, tag_accepted]
    · rintro a b r' h1; exact absurd h1 h
    · exact h
  free := by
    rintro ⟨⟨h | h, -⟩, -⟩
    · rcases h with h | h | h <;> revert h <;> (try unfold Digit) <;> (try unfold Letter) <;> decide
    · revert h; decide

/-- **C63 (partial).** The class of tags, for strings without dashes and parentheses.  Missing: these, which are refused (see
`dash_refused`). -/
theorem tag_exact_partial (s : List Char) (hs : ∀ c ∈ s, c ∉ ['-', '(', ')']) :
    conformsCharSet s .tag = true ↔ Escaped TagChar s := by
  show isTagString s = true ↔ _
  rw [tag_scans.iff]
  constructor
  · intro h
    induction h with
    | nil => exact .nil
    | @char c s h1 _ ih => exact .char h1.1 (ih fun c hc => hs c (by simp [hc]))
    | percent h1 h2 _ ih => exact .percent h1 h2 (ih fun c hc => hs c (by simp [hc]))
  · intro h
    induction h with
    | nil => exact .nil
    | @char c s h1 _ ih => exact .char ⟨h1, hs c (by simp)⟩ (ih fun c hc => hs c (by simp [hc]))
    | percent h1 h2 _ ih => exact .percent h1 h2 (ih fun c hc => hs c (by simp [hc]))

example : Escaped TagChar "a:%2f".toList ∧ ∀ c ∈ "a:%2f".toList, c ∉ ['-', '(', ')'] :=
  ⟨.char ⟨.inl (.inr (.inl (by unfold Letter; decide))), by decide, by unfold FlowIndicator; decide⟩
    (.char ⟨.inr (by decide), by decide, by unfold FlowIndicator; decide⟩
      (.percent (by unfold Hex; decide) (by unfold Hex; decide) .nil)), by decide⟩

/-- C63 fails for tags with dashes: they are refused. -/
theorem dash_refused : Escaped TagChar ['-'] ∧ conformsCharSet ['-'] .tag = false :=
  ⟨.char ⟨.inl (.inr (.inr rfl)), by decide, by unfold FlowIndicator; decide⟩ .nil, by decide⟩

/-! ### Anchors and plain scalars -/

/-- **C63 (partial).** The classes of anchors and of plain scalars in brackets, for strings of characters which are neither white space nor
control characters.  Missing: these, which are accepted (see `space_accepted`); the tokenizer never has white space in such strings. -/
theorem anchor_exact_partial (s : List Char) (hs : ∀ c ∈ s, NsChar c) (cs : CharSet) (hcs : cs = .anchor ∨ cs = .plainSafe) :
    conformsCharSet s cs = true ↔ ∀ c ∈ s, NsChar c ∧ ¬ FlowIndicator c := by
  have : conformsCharSet s cs = isPlainSafeString s := by rcases hcs with rfl | rfl <;> rfl
  rw [this]
  simp only [isPlainSafeString, List.all_eq_true, Bool.not_eq_true', ← Bool.not_eq_true, flow_iff]
  exact ⟨fun h c hc => ⟨hs c hc, h c hc⟩, fun h c hc => (h c hc).2⟩

example : (∀ c ∈ "a-é".toList, NsChar c) ∧ conformsCharSet "a-é".toList .anchor = true := by
  refine ⟨?_, by decide⟩
  unfold NsChar
  decide

/-- C63 fails for anchors with spaces: they are accepted. -/
theorem space_accepted : ¬ NsChar ' ' ∧ conformsCharSet [' '] .anchor = true ∧ conformsCharSet [' '] .plainSafe = true := by
  unfold NsChar
  decide

/-! ### Texts in double quotes -/

/-- C63.  The class of texts in double quotes: exactly the strings of such characters, if the escapes of one letter are those without
the backspace. -/
theorem double_exact (s : List Char) : conformsCharSet s .doubleQuoted = true ↔ Double (escapeLetters.erase 'b') s := by
  show isDoubleQuotedString s = true ↔ _
  have hletters : ∀ c, c ∈ singleEscapedCharacters ↔ c ∈ escapeLetters.erase 'b' := by
    intro c
    have h1 : ∀ c ∈ singleEscapedCharacters, c ∈ escapeLetters.erase 'b' := by decide
    have h2 : ∀ c ∈ escapeLetters.erase 'b', c ∈ singleEscapedCharacters := by decide
    exact ⟨h1 c, h2 c⟩
  constructor
  · have key : ∀ (n : Nat) (s : List Char), s.length ≤ n → isDoubleQuotedString s = true → Double (escapeLetters.erase 'b') s := by
      intro n
      induction n with
      | zero => intro s hn _; obtain rfl : s = [] := List.length_eq_zero_iff.1 (by omega); exact .nil
      | succ n ih =>
        intro s hn h
        cases s with
        | nil => exact .nil
        | cons c r =>
          simp only [List.length_cons] at hn
          by_cases hc : c = '\\'
          · subst hc
            rw [isDoubleQuotedString_esc] at h
            cases he : escapedRest r with
            | none => rw [he] at h; cases h
            | some r' =>
              rw [he] at h
              have hlen := escapedRest_length he
              have hd := ih r' (by omega) h
              have hx : ∀ {l : Char} {k : Nat} {t : List Char}, (l, k) ∈ [('x', 2), ('u', 4), ('U', 8)] →
                  (if t.length < k || !areHexDigits (t.take k) then none else some (t.drop k)) = some r' →
                  Double (escapeLetters.erase 'b') ('\\' :: l :: t) := by
                intro l k t hl ht
                split at ht
                · cases ht
                · rename_i hh
                  simp only [Bool.or_eq_true, decide_eq_true_eq, Bool.not_eq_true', not_or, Nat.not_lt, Bool.not_eq_false] at hh
                  injection ht with ht
                  rw [← List.take_append_drop k t, ht]
                  refine .hex hl (by simp; omega) (fun c hc => ?_) hd
                  have := hh.2
                  simp only [areHexDigits, List.all_eq_true] at this
                  exact (hex_iff c).1 (this c hc)
              unfold escapedRest at he
              split at he
              · cases he
              · exact hx (by simp) he
              · exact hx (by simp) he
              · exact hx (by simp) he
              · split at he
                · rename_i hm
                  injection he with he
                  subst he
                  exact .letter ((hletters _).1 (by simpa using hm)) hd
                · cases he
          · by_cases hq : c = '"'
            · subst hq
              rw [isDoubleQuotedString.eq_def] at h
              simp at h
            · rw [isDoubleQuotedString_plain hc hq, Bool.and_eq_true] at h
              exact .char ((json_iff _).1 h.1) hq hc (ih r (by omega) h.2)
    exact key _ s (Nat.le_refl _)
  · intro h
    induction h with
    | nil => rw [isDoubleQuotedString.eq_def]
    | @char c s h1 h2 h3 _ ih => rw [isDoubleQuotedString_plain h3 h2, (json_iff _).2 h1, ih]; rfl
    | @letter l s h1 _ ih =>
      have hne : ∀ l ∈ escapeLetters.erase 'b', l ≠ 'x' ∧ l ≠ 'u' ∧ l ≠ 'U' := by decide
      obtain ⟨n1, n2, n3⟩ := hne l h1
      rw [isDoubleQuotedString_esc, escapedRest_letter n1 n2 n3, if_pos (by simpa using (hletters l).2 h1)]
      exact ih
    | @hex l n d s h1 h2 h3 _ ih =>
      have hd : areHexDigits d = true := by
        simp only [areHexDigits, List.all_eq_true]
        exact fun c hc => (hex_iff c).2 (h3 c hc)
      have ht : (d ++ s).take n = d := by rw [← h2]; simp
      have hr : (d ++ s).drop n = s := by rw [← h2]; simp
      have hl : ¬ (d ++ s).length < n := by simp; omega
      have : escapedRest (l :: (d ++ s)) = some s := by
        simp only [List.mem_cons, Prod.mk.injEq, List.not_mem_nil, or_false] at h1
        rcases h1 with ⟨rfl, rfl⟩ | ⟨rfl, rfl⟩ | ⟨rfl, rfl⟩ <;> simp only [escapedRest, ht, hr, hd] <;> simp [hl] <;> omega
      rw [isDoubleQuotedString_esc, this]
      exact ih

example : Double (escapeLetters.erase 'b') "a\\u00e9\\n".toList :=
  .char (.inr (by decide)) (by decide) (by decide) (.hex (l := 'u') (n := 4) (d := "00e9".toList) (by decide) rfl
    (by unfold Hex; decide) (.letter (by decide) .nil))

/-- C63 fails for the escape of the backspace: it is refused. -/
theorem backspace_refused : Double escapeLetters "\\b".toList ∧ conformsCharSet "\\b".toList .doubleQuoted = false := by
  refine ⟨.letter (by decide) .nil, ?_⟩
  show isDoubleQuotedString ['\\', 'b'] = false
  rw [isDoubleQuotedString_esc]
  rfl

/-- C63.  The other classes are empty. -/
theorem unknown_empty (s : List Char) : conformsCharSet s .unknown = false := rfl

/-- **C63.** Blanks are the white space [33] and the line breaks [24-26] of the specification … -/
theorem blank_exact (c : Char) : isBlankChar c = true ↔ c = ' ' ∨ c = '\t' ∨ c = '\n' ∨ c = '\r' := by
  simp [isBlankChar, isWhitespaceChar, isLineBreakChar, or_assoc]

/-- … and what the tokenizer looks for behind an indicator. -/
theorem blank_ahead (c : Char) : Lexer.blankOrEOF (some c) = isBlankChar c ∧ Lexer.blankOrEOF none = true := by
  refine ⟨?_, rfl⟩
  simp [Lexer.blankOrEOF, isBlankChar, isWhitespaceChar, isLineBreakChar, Bool.or_assoc]

end Verif.Props.CharClasses
