import Verif.Model.GenTypeName
import Verif.Props.GenNames

/-!
Lemmas on the texts for types: `typeName` against the grammar `TypeText`.
-/

set_option linter.unusedSimpArgs false

namespace Verif.GenTypeName

open Verif.GoType Verif.GenNames

/-! ### numbers -/

theorem decimal_snoc (ds : Text) (c : Char) : decimal (ds ++ [c]) = 10 * decimal ds + (c.toNat - 48) := by
  simp [decimal, List.foldl_append]

theorem digit_toNat {d : Nat} (h : d < 10) : (Char.ofNat (48 + d)).toNat = 48 + d := toNat_digit d h

theorem digit_isDigit {d : Nat} (h : d < 10) : (Char.ofNat (48 + d)).isDigit = true := by
  have : ∀ d : Fin 10, (Char.ofNat (48 + d.val)).isDigit = true := by decide
  exact this ⟨d, h⟩

theorem digit_zero {d : Nat} (h : d < 10) (h' : Char.ofNat (48 + d) = '0') : d = 0 := by
  have : ∀ d : Fin 10, Char.ofNat (48 + d.val) = '0' → d.val = 0 := by decide
  exact this ⟨d, h⟩ h'

theorem itoa_decimal (n : Nat) : decimal (itoaChars n) = n := by
  induction n using Nat.strongRecOn with
  | _ n ih =>
    rw [itoaChars]
    split
    · rename_i h
      simp [decimal, digit_toNat h]
    · rename_i h
      rw [decimal_snoc, ih (n / 10) (by omega), digit_toNat (by omega)]
      omega

theorem itoa_digits (n : Nat) : ∀ c ∈ itoaChars n, c.isDigit = true := by
  induction n using Nat.strongRecOn with
  | _ n ih =>
    rw [itoaChars]
    split
    · rename_i h
      simp [digit_isDigit h]
    · intro c hc
      rcases List.mem_append.1 hc with hc | hc
      · exact ih (n / 10) (by omega) c hc
      · rw [List.mem_singleton.1 hc]
        exact digit_isDigit (by omega)

theorem itoa_front (n : Nat) : itoaChars n = ['0'] ∨ (itoaChars n).head? ≠ some '0' := by
  induction n using Nat.strongRecOn with
  | _ n ih =>
    rw [itoaChars]
    split
    · rename_i h
      by_cases hz : Char.ofNat (48 + n) = '0'
      · exact .inl (by rw [hz])
      · exact .inr (by simpa using hz)
    · rename_i h
      right
      rcases ih (n / 10) (by omega) with hz | hz
      · have := itoa_decimal (n / 10)
        rw [hz] at this
        exact absurd this.symm (by show n / 10 ≠ decimal ['0']; simp [decimal]; omega)
      · cases hd : itoaChars (n / 10) with
        | nil => exact absurd hd (itoaChars_ne_nil _)
        | cons c cs => rw [hd] at hz; simpa using hz

theorem itoa_literal (n : Nat) : Decimal (itoaChars n) n :=
  ⟨⟨itoaChars_ne_nil n, itoa_digits n⟩, itoa_front n, itoa_decimal n⟩

theorem hexChar_digit {n : Nat} (h : n < 16) : hexDigit (hexChar n) = some n := by
  have : ∀ n : Fin 16, hexDigit (hexChar n.val) = some n.val := by decide
  exact this ⟨n, h⟩

theorem hexDigits_length (k n : Nat) : (hexDigits k n).length = k := by
  induction k generalizing n with
  | zero => rfl
  | succ k ih => simp [hexDigits, ih]

theorem hexDigits_hex (k n : Nat) (h : n < 16 ^ k) : Hex (hexDigits k n) n := by
  induction k generalizing n with
  | zero =>
    have : n = 0 := by simpa using h
    subst this
    exact .nil
  | succ k ih =>
    have h1 := Hex.snoc (ih (n / 16) (by rw [Nat.pow_succ] at h; omega)) (hexChar_digit (n := n % 16) (by omega))
    have h2 : 16 * (n / 16) + n % 16 = n := Nat.div_add_mod n 16
    rw [h2] at h1
    exact h1

/-! ### tags -/

theorem char_toNat_lt (c : Char) : c.toNat < 0x110000 := by
  have h := c.valid
  simp only [UInt32.isValidChar, Nat.isValidChar] at h
  show c.val.toNat < _
  omega

theorem quoteChar_interpreted {print : Char → Bool} (hp : print '\n' = false) (c : Char) {s x : Text}
    (h : Interpreted s x) : Interpreted (quoteChar print c ++ s) (c :: x) := by
  unfold quoteChar
  split
  · rename_i hc
    rcases hc with rfl | rfl
    · exact .escape (e := '"') (by decide) h
    · exact .escape (e := '\\') (by decide) h
  rename_i hc
  simp only [not_or] at hc
  split
  · rename_i hpc
    refine .char hc.1 hc.2 ?_ h
    rintro rfl
    rw [hp] at hpc
    exact absurd hpc (by simp)
  split
  · rename_i hc; subst hc; exact .escape (e := 'a') (by decide) h
  split
  · rename_i hc; subst hc; exact .escape (e := 'b') (by decide) h
  split
  · rename_i hc; subst hc; exact .escape (e := 'f') (by decide) h
  split
  · rename_i hc; subst hc; exact .escape (e := 'n') (by decide) h
  split
  · rename_i hc; subst hc; exact .escape (e := 'r') (by decide) h
  split
  · rename_i hc; subst hc; exact .escape (e := 't') (by decide) h
  split
  · rename_i hc; subst hc; exact .escape (e := 'v') (by decide) h
  split
  · rename_i hc
    exact .byte (hexDigits_length _ _) (hexDigits_hex 2 _ (by omega)) (by omega) h
  split
  · rename_i hc
    exact .little (hexDigits_length _ _) (hexDigits_hex 4 _ (by omega)) h
  · have := char_toNat_lt c
    exact .big (hexDigits_length _ _) (hexDigits_hex 8 _ (by omega)) h

theorem quote_interpreted {print : Char → Bool} (hp : print '\n' = false) (s : Text) :
    Interpreted (s.flatMap (quoteChar print)) s := by
  induction s with
  | nil => exact .nil
  | cons c s ih => exact quoteChar_interpreted hp c ih

theorem quote_str {print : Char → Bool} (hp : print '\n' = false) (s : Text) : Str (quote print s) s :=
  .interpreted (quote_interpreted hp s)

/-- A tag which keeps its characters: no carriage return, or quoted for a back quote. -/
def TagFine (tag : Text) : Prop := '`' ∈ tag ∨ '\r' ∉ tag

theorem escapeTag_str {print : Char → Bool} (hp : print '\n' = false) {tag : Text} (h : TagFine tag) :
    Str (escapeTag print tag) tag := by
  unfold escapeTag
  split
  · exact quote_str hp tag
  · rename_i hb
    rcases h with h | h
    · exact absurd h hb
    · have h1 := Str.raw hb
      have h2 : tag.filter (· ≠ '\r') = tag := by
        rw [List.filter_eq_self]
        intro c hc
        simp only [ne_eq, decide_not, Bool.not_eq_eq_eq_not, Bool.not_true, decide_eq_false_iff_not]
        rintro rfl
        exact h hc
      rw [h2] at h1
      exact h1

theorem gap_nil : Gap [] := by intro c hc; simp at hc

theorem gap_one : Gap [' '] := by intro c hc; simpa using hc

theorem tagText_ok {print : Char → Bool} (hp : print '\n' = false) {tag : Text} (h : TagFine tag) :
    TagText (tagText print tag) tag := by
  unfold tagText
  split
  · rename_i ht; subst ht; exact .none
  · exact .some gap_one (escapeTag_str hp h)

/-! ### the table of imports -/

/-- What holds of the map `imports`. -/
def Table (m : Imports) : Prop := ImportsOk m ∧ ∀ e ∈ m, e.2 ≠ []

mutual

theorem typeName_table (print : Char → Bool) (own : Text) (fuel : Nat) : (t : Ty) → {m m' : Imports} → {x : Text} →
    Table m → typeName print own fuel t m = some (x, m') → Table m' ∧ ∀ e ∈ m, e ∈ m'
  | .pointer t, m, m', x, hm, h => by
    simp only [typeName] at h
    split at h
    · exact absurd h (by simp)
    · rename_i y m1 h1
      simp only [Option.some.injEq, Prod.mk.injEq] at h
      rw [← h.2]
      exact typeName_table print own fuel t hm h1
  | .slice t, m, m', x, hm, h => by
    simp only [typeName] at h
    split at h
    · exact absurd h (by simp)
    · rename_i y m1 h1
      simp only [Option.some.injEq, Prod.mk.injEq] at h
      rw [← h.2]
      exact typeName_table print own fuel t hm h1
  | .array n t, m, m', x, hm, h => by
    simp only [typeName] at h
    split at h
    · exact absurd h (by simp)
    · rename_i y m1 h1
      simp only [Option.some.injEq, Prod.mk.injEq] at h
      rw [← h.2]
      exact typeName_table print own fuel t hm h1
  | .map k t, m, m', x, hm, h => by
    simp only [typeName] at h
    split at h
    · exact absurd h (by simp)
    · rename_i y m1 h1
      split at h
      · exact absurd h (by simp)
      · rename_i z m2 h2
        simp only [Option.some.injEq, Prod.mk.injEq] at h
        rw [← h.2]
        obtain ⟨a, b⟩ := typeName_table print own fuel k hm h1
        obtain ⟨c, d⟩ := typeName_table print own fuel t a h2
        exact ⟨c, fun e he => d e (b e he)⟩
  | .struct fs, m, m', x, hm, h => by
    simp only [typeName] at h
    split at h
    · exact absurd h (by simp)
    · rename_i y m1 h1
      simp only [Option.some.injEq, Prod.mk.injEq] at h
      rw [← h.2]
      exact fieldLines_table print own fuel fs hm h1
  | .iface, m, m', x, hm, h => by
    simp only [typeName, Option.some.injEq, Prod.mk.injEq] at h
    rw [← h.2]
    exact ⟨hm, fun _ he => he⟩
  | .other s, m, m', x, hm, h => by
    simp only [typeName, Option.some.injEq, Prod.mk.injEq] at h
    rw [← h.2]
    exact ⟨hm, fun _ he => he⟩
  | .named p n, m, m', x, hm, h => by
    simp only [typeName] at h
    split at h
    · simp only [Option.some.injEq, Prod.mk.injEq] at h
      rw [← h.2]
      exact ⟨hm, fun _ he => he⟩
    split at h
    · simp only [Option.some.injEq, Prod.mk.injEq] at h
      rw [← h.2]
      exact ⟨hm, fun _ he => he⟩
    split at h
    · exact absurd h (by simp)
    · rename_i a m1 h1
      simp only [Option.some.injEq, Prod.mk.injEq] at h
      rw [← h.2]
      obtain ⟨h2, h3, _, h4⟩ := Verif.Props.GenNames.pkgAlias_spec hm.1 hm.2 h1
      exact ⟨⟨h2, h3⟩, h4⟩

theorem fieldLines_table (print : Char → Bool) (own : Text) (fuel : Nat) : (fs : Fields) → {m m' : Imports} →
    {ls : List Text} → Table m → fieldLines print own fuel fs m = some (ls, m') → Table m' ∧ ∀ e ∈ m, e ∈ m'
  | .nil, m, m', ls, hm, h => by
    simp only [fieldLines, Option.some.injEq, Prod.mk.injEq] at h
    rw [← h.2]
    exact ⟨hm, fun _ he => he⟩
  | .cons n p b t tag rest, m, m', ls, hm, h => by
    simp only [fieldLines] at h
    split at h
    · exact absurd h (by simp)
    · rename_i y m1 h1
      split at h
      · exact absurd h (by simp)
      · rename_i z m2 h2
        simp only [Option.some.injEq, Prod.mk.injEq] at h
        rw [← h.2]
        obtain ⟨a, b⟩ := typeName_table print own fuel t hm h1
        obtain ⟨c, d⟩ := fieldLines_table print own fuel rest a h2
        exact ⟨c, fun e he => d e (b e he)⟩

end

/-! ### there is an answer -/

theorem aliasLoop_mono {m : Imports} {path alias : List Char} {f : Nat} : ∀ {i r}, aliasLoop m path alias f i = some r →
    ∀ {f'}, f ≤ f' → aliasLoop m path alias f' i = some r := by
  induction f with
  | zero => intro i r h; simp [aliasLoop] at h
  | succ f ih =>
    intro i r h f' hf
    obtain ⟨k, rfl⟩ : ∃ k, f' = k + 1 := ⟨f' - 1, by omega⟩
    simp only [aliasLoop] at h ⊢
    split at h
    · rename_i hc
      rw [if_pos hc]
      exact ih h (by omega)
    · rename_i hc
      rw [if_neg hc]
      exact h

theorem pkgAlias_mono {m : Imports} {path : List Char} {f f' : Nat} {r} (h : pkgAlias m f path = some r) (hf : f ≤ f') :
    pkgAlias m f' path = some r := by
  unfold pkgAlias at h ⊢
  simp only at h ⊢
  cases hl : List.lookup (processVendoring path) m with
  | none => rw [hl] at h; exact aliasLoop_mono h hf
  | some a =>
    rw [hl] at h
    cases a with
    | nil => exact aliasLoop_mono h hf
    | cons c cs => exact h

mutual

theorem typeName_mono (print : Char → Bool) (own : Text) {f f' : Nat} (hf : f ≤ f') : (t : Ty) → {m : Imports} →
    {r : Text × Imports} → typeName print own f t m = some r → typeName print own f' t m = some r
  | .pointer t, m, r, h => by
    simp only [typeName] at h ⊢
    split at h
    · exact absurd h (by simp)
    · rename_i y m1 h1
      rw [typeName_mono print own hf t h1]
      exact h
  | .slice t, m, r, h => by
    simp only [typeName] at h ⊢
    split at h
    · exact absurd h (by simp)
    · rename_i y m1 h1
      rw [typeName_mono print own hf t h1]
      exact h
  | .array n t, m, r, h => by
    simp only [typeName] at h ⊢
    split at h
    · exact absurd h (by simp)
    · rename_i y m1 h1
      rw [typeName_mono print own hf t h1]
      exact h
  | .map k t, m, r, h => by
    simp only [typeName] at h ⊢
    split at h
    · exact absurd h (by simp)
    · rename_i y m1 h1
      rw [typeName_mono print own hf k h1]
      split at h
      · exact absurd h (by simp)
      · rename_i z m2 h2
        simp only [typeName_mono print own hf t h2]
        exact h
  | .struct fs, m, r, h => by
    simp only [typeName] at h ⊢
    split at h
    · exact absurd h (by simp)
    · rename_i y m1 h1
      rw [fieldLines_mono print own hf fs h1]
      exact h
  | .iface, m, r, h => by simpa only [typeName] using h
  | .other s, m, r, h => by simpa only [typeName] using h
  | .named p n, m, r, h => by
    simp only [typeName] at h ⊢
    split at h
    · rename_i hc; rw [if_pos hc]; exact h
    rename_i hc
    rw [if_neg hc]
    split at h
    · rename_i hc; rw [if_pos hc]; exact h
    rename_i hc
    rw [if_neg hc]
    split at h
    · exact absurd h (by simp)
    · rename_i a m1 h1
      rw [pkgAlias_mono h1 hf]
      exact h

theorem fieldLines_mono (print : Char → Bool) (own : Text) {f f' : Nat} (hf : f ≤ f') : (fs : Fields) → {m : Imports} →
    {r : List Text × Imports} → fieldLines print own f fs m = some r → fieldLines print own f' fs m = some r
  | .nil, m, r, h => by simpa only [fieldLines] using h
  | .cons n p b t tag rest, m, r, h => by
    simp only [fieldLines] at h ⊢
    split at h
    · exact absurd h (by simp)
    · rename_i y m1 h1
      rw [typeName_mono print own hf t h1]
      split at h
      · exact absurd h (by simp)
      · rename_i z m2 h2
        simp only [fieldLines_mono print own hf rest h2]
        exact h

end

mutual

theorem typeName_total (print : Char → Bool) (own : Text) : (t : Ty) → (m : Imports) →
    ∃ f r, typeName print own f t m = some r
  | .pointer t, m => by
    obtain ⟨f, ⟨y, m1⟩, h⟩ := typeName_total print own t m
    exact ⟨f, _, by simp only [typeName, h]; exact rfl⟩
  | .slice t, m => by
    obtain ⟨f, ⟨y, m1⟩, h⟩ := typeName_total print own t m
    exact ⟨f, _, by simp only [typeName, h]; exact rfl⟩
  | .array n t, m => by
    obtain ⟨f, ⟨y, m1⟩, h⟩ := typeName_total print own t m
    exact ⟨f, _, by simp only [typeName, h]; exact rfl⟩
  | .map k t, m => by
    obtain ⟨f, ⟨y, m1⟩, h⟩ := typeName_total print own k m
    obtain ⟨f', ⟨z, m2⟩, h'⟩ := typeName_total print own t m1
    exact ⟨f + f', _, by
      simp only [typeName, typeName_mono print own (Nat.le_add_right f f') k h,
        typeName_mono print own (Nat.le_add_left f' f) t h']
      exact rfl⟩
  | .struct fs, m => by
    obtain ⟨f, ⟨y, m1⟩, h⟩ := fieldLines_total print own fs m
    exact ⟨f, _, by simp only [typeName, h]; exact rfl⟩
  | .iface, m => ⟨0, _, by simp only [typeName]; exact rfl⟩
  | .other s, m => ⟨0, _, by simp only [typeName]; exact rfl⟩
  | .named p n, m => by
    obtain ⟨f, ⟨a, m1⟩, h⟩ := Verif.Props.GenNames.alias_found m p
    by_cases h1 : p = []
    · exact ⟨0, _, by simp only [typeName, if_pos h1]; exact rfl⟩
    by_cases h2 : p = own
    · exact ⟨0, _, by simp only [typeName, if_neg h1, if_pos h2]; exact rfl⟩
    exact ⟨f, _, by simp only [typeName, if_neg h1, if_neg h2, h]; exact rfl⟩

theorem fieldLines_total (print : Char → Bool) (own : Text) : (fs : Fields) → (m : Imports) →
    ∃ f r, fieldLines print own f fs m = some r
  | .nil, m => ⟨0, _, by simp only [fieldLines]; exact rfl⟩
  | .cons n p b t tag rest, m => by
    obtain ⟨f, ⟨y, m1⟩, h⟩ := typeName_total print own t m
    obtain ⟨f', ⟨z, m2⟩, h'⟩ := fieldLines_total print own rest m1
    exact ⟨f + f', _, by
      simp only [fieldLines, typeName_mono print own (Nat.le_add_right f f') t h,
        fieldLines_mono print own (Nat.le_add_left f' f) rest h']
      exact rfl⟩

end

/-! ### the texts denote the types -/

mutual

/-- The types which can be written in a file: the names can be used where the code stands.  `resolve` gives the package for
an import path (the vendored one, if there is one). -/
def Writable (e : Env) (resolve : Text → Text) : Ty → Prop
  | .named p x =>
    if p = [] then x ∈ predeclared ∧ ¬ e.hidden x ∧ e.imports x = none ∧ ¬ e.declared x
    else if p = e.own then Name x ∧ ¬ e.hidden x ∧ e.imports x = none ∧ e.declared x
    else Name x ∧ exported x = true ∧ resolve (processVendoring p) = p ∧
      ∀ a, e.imports a = some p → Name a ∧ ¬ e.hidden a
  | .pointer t => Writable e resolve t
  | .slice t => Writable e resolve t
  | .array _ t => Writable e resolve t
  | .map k t => Writable e resolve k ∧ Writable e resolve t
  | .struct fs => WritableFields e resolve fs
  | .iface => True
  | .other _ => False

/-- Fields which can be written: the names belong to the own package or are exported, the name of an embedded field is that
of its type, and the tag keeps its characters. -/
def WritableFields (e : Env) (resolve : Text → Text) : Fields → Prop
  | .nil => True
  | .cons n p b t tag rest =>
    p = fieldPkg e.own n ∧ (b = false → Name n) ∧ (b = true → embeddedName t = some n) ∧ TagFine tag ∧
      Writable e resolve t ∧ WritableFields e resolve rest

end

/-- The import clauses of the file, as the code sees them. -/
def Sees (e : Env) (resolve : Text → Text) (m : Imports) : Prop := ∀ p a, (p, a) ∈ m → e.imports a = some (resolve p)

theorem joinLines_cons (x y : Text) (xs : List Text) : joinLines (x :: y :: xs) = x ++ ("; ".toList ++ joinLines (y :: xs)) := rfl

theorem fieldText_gap {e : Env} {x n p b t tag} (h : FieldText e x n p b t tag) : FieldText e (' ' :: x) n p b t tag := by
  cases h with
  | @named g n g' x t w tag g'' h1 h2 h3 h4 h5 h6 h7 =>
    exact .named (g := ' ' :: g) (by intro c hc; rcases List.mem_cons.1 hc with rfl | hc; rfl; exact h1 c hc) h2 h3 h4 h5 h6 h7
  | @embedded g x n t w tag g'' h1 h2 h3 h4 h5 =>
    exact .embedded (g := ' ' :: g) (by intro c hc; rcases List.mem_cons.1 hc with rfl | hc; rfl; exact h1 c hc) h2 h3 h4 h5

theorem fieldsText_gap {e : Env} {x fs} (h : FieldsText e x fs) : FieldsText e (' ' :: x) fs := by
  cases h with
  | nil hg => exact .nil (by intro c hc; rcases List.mem_cons.1 hc with rfl | hc; rfl; exact hg c hc)
  | last h => exact .last (fieldText_gap h)
  | cons h h' => exact .cons (fieldText_gap h) h'

theorem fieldText_end {e : Env} {x n p b t tag} (h : FieldText e x n p b t tag) : FieldText e (x ++ [' ']) n p b t tag := by
  cases h with
  | @named g n g' x t w tag g'' h1 h2 h3 h4 h5 h6 h7 =>
    have := FieldText.named (e := e) (g'' := g'' ++ [' ']) h1 h2 h3 h4 h5 h6 (by
      intro c hc
      rcases List.mem_append.1 hc with hc | hc
      · exact h7 c hc
      · simpa using hc)
    simpa using this
  | @embedded g x n t w tag g'' h1 h2 h3 h4 h5 =>
    have := FieldText.embedded (e := e) (g'' := g'' ++ [' ']) h1 h2 h3 h4 (by
      intro c hc
      rcases List.mem_append.1 hc with hc | hc
      · exact h5 c hc
      · simpa using hc)
    simpa using this

mutual

theorem typeName_denotes {print : Char → Bool} (hp : print '\n' = false) (e : Env) (resolve : Text → Text) (fuel : Nat)
    {M : Imports} (hM : Sees e resolve M) : (t : Ty) → {m m' : Imports} → {x : Text} → Table m →
    typeName print e.own fuel t m = some (x, m') → (∀ i ∈ m', i ∈ M) → Writable e resolve t → TypeText e x t
  | .pointer t, m, m', x, hm, h, hs, hw => by
    simp only [typeName] at h
    split at h
    · exact absurd h (by simp)
    · rename_i y m1 h1
      simp only [Option.some.injEq, Prod.mk.injEq] at h
      obtain ⟨rfl, rfl⟩ := h
      simp only [Writable] at hw
      exact .pointer (typeName_denotes hp e resolve fuel hM t hm h1 hs hw)
  | .slice t, m, m', x, hm, h, hs, hw => by
    simp only [typeName] at h
    split at h
    · exact absurd h (by simp)
    · rename_i y m1 h1
      simp only [Option.some.injEq, Prod.mk.injEq] at h
      obtain ⟨rfl, rfl⟩ := h
      simp only [Writable] at hw
      exact .slice (typeName_denotes hp e resolve fuel hM t hm h1 hs hw)
  | .array n t, m, m', x, hm, h, hs, hw => by
    simp only [typeName] at h
    split at h
    · exact absurd h (by simp)
    · rename_i y m1 h1
      simp only [Option.some.injEq, Prod.mk.injEq] at h
      obtain ⟨rfl, rfl⟩ := h
      simp only [Writable] at hw
      exact .array (itoa_literal n) (typeName_denotes hp e resolve fuel hM t hm h1 hs hw)
  | .map k t, m, m', x, hm, h, hs, hw => by
    simp only [typeName] at h
    split at h
    · exact absurd h (by simp)
    · rename_i y m1 h1
      split at h
      · exact absurd h (by simp)
      · rename_i z m2 h2
        simp only [Option.some.injEq, Prod.mk.injEq] at h
        obtain ⟨rfl, rfl⟩ := h
        simp only [Writable] at hw
        obtain ⟨a, b⟩ := typeName_table print e.own fuel k hm h1
        obtain ⟨c, d⟩ := typeName_table print e.own fuel t a h2
        exact .map (typeName_denotes hp e resolve fuel hM k hm h1 (fun i hi => hs i (d i hi)) hw.1)
          (typeName_denotes hp e resolve fuel hM t a h2 hs hw.2)
  | .struct fs, m, m', x, hm, h, hs, hw => by
    simp only [typeName] at h
    split at h
    · exact absurd h (by simp)
    · rename_i ls m1 h1
      simp only [Option.some.injEq, Prod.mk.injEq] at h
      obtain ⟨rfl, rfl⟩ := h
      simp only [Writable] at hw
      have h2 := fieldsText_gap (fieldLines_denote hp e resolve fuel hM fs hm h1 hs hw)
      have h3 := TypeText.struct gap_one h2
      have h4 : "struct { ".toList ++ (joinLines ls ++ " }".toList) =
          "struct".toList ++ ([' '] ++ '{' :: ((' ' :: (joinLines ls ++ [' '])) ++ ['}'])) := by
        have ha : "struct { ".toList = "struct".toList ++ [' ', '{', ' '] := by decide +kernel
        have hb : " }".toList = [' ', '}'] := by decide +kernel
        rw [ha, hb]
        simp
      rw [h4]
      exact h3
  | .iface, m, m', x, hm, h, hs, hw => by
    simp only [typeName, Option.some.injEq, Prod.mk.injEq] at h
    obtain ⟨rfl, rfl⟩ := h
    have h3 := TypeText.iface (e := e) gap_one gap_nil
    have h4 : "interface {}".toList = "interface".toList ++ ([' '] ++ '{' :: ([] ++ ['}'])) := by decide +kernel
    rw [h4]
    exact h3
  | .other s, m, m', x, hm, h, hs, hw => by
    simp only [Writable] at hw
  | .named p n, m, m', x, hm, h, hs, hw => by
    simp only [typeName] at h
    simp only [Writable] at hw
    split at h
    · rename_i hc
      rw [if_pos hc] at hw
      simp only [Option.some.injEq, Prod.mk.injEq] at h
      obtain ⟨rfl, rfl⟩ := h
      subst hc
      exact .predeclared hw.1 hw.2.1 hw.2.2.1 hw.2.2.2
    rename_i hc
    rw [if_neg hc] at hw
    split at h
    · rename_i hc
      rw [if_pos hc] at hw
      simp only [Option.some.injEq, Prod.mk.injEq] at h
      obtain ⟨rfl, rfl⟩ := h
      subst hc
      exact .own hw.1 hw.2.1 hw.2.2.1 hw.2.2.2
    rename_i hc
    rw [if_neg hc] at hw
    split at h
    · exact absurd h (by simp)
    · rename_i a m1 h1
      simp only [Option.some.injEq, Prod.mk.injEq] at h
      obtain ⟨rfl, rfl⟩ := h
      obtain ⟨_, _, h2, _⟩ := Verif.Props.GenNames.pkgAlias_spec hm.1 hm.2 h1
      have h3 := hM _ _ (hs _ h2)
      rw [hw.2.2.1] at h3
      obtain ⟨h4, h5⟩ := hw.2.2.2 a h3
      exact .imported h4 h5 h3 hw.1 hw.2.1

theorem fieldLines_denote {print : Char → Bool} (hp : print '\n' = false) (e : Env) (resolve : Text → Text) (fuel : Nat)
    {M : Imports} (hM : Sees e resolve M) : (fs : Fields) → {m m' : Imports} → {ls : List Text} → Table m →
    fieldLines print e.own fuel fs m = some (ls, m') → (∀ i ∈ m', i ∈ M) → WritableFields e resolve fs →
    FieldsText e (joinLines ls ++ [' ']) fs
  | .nil, m, m', ls, hm, h, hs, hw => by
    simp only [fieldLines, Option.some.injEq, Prod.mk.injEq] at h
    obtain ⟨rfl, rfl⟩ := h
    exact .nil gap_one
  | .cons n p b t tag rest, m, m', ls, hm, h, hs, hw => by
    simp only [fieldLines] at h
    split at h
    · exact absurd h (by simp)
    · rename_i y m1 h1
      split at h
      · exact absurd h (by simp)
      · rename_i z m2 h2
        simp only [Option.some.injEq, Prod.mk.injEq] at h
        obtain ⟨rfl, rfl⟩ := h
        simp only [WritableFields] at hw
        obtain ⟨rfl, hw1, hw2, hw3, hw4, hw5⟩ := hw
        obtain ⟨a, _⟩ := typeName_table print e.own fuel t hm h1
        obtain ⟨c, d⟩ := fieldLines_table print e.own fuel rest a h2
        have ht := typeName_denotes hp e resolve fuel hM t hm h1 (fun i hi => hs i (d i hi)) hw4
        have hr := fieldLines_denote hp e resolve fuel hM rest a h2 hs hw5
        have hl : FieldText e ((if b = true then [] else n ++ " ".toList) ++ (y ++ tagText print tag)) n
            (fieldPkg e.own n) b t tag := by
          cases b with
          | true =>
            have := FieldText.embedded gap_nil ht (hw2 rfl) (tagText_ok hp hw3) gap_nil
            simpa using this
          | false =>
            have := FieldText.named gap_nil (hw1 rfl) gap_one (by simp) ht (tagText_ok hp hw3) gap_nil
            have hsp : " ".toList = [' '] := by decide +kernel
            rw [hsp]
            simpa using this
        generalize ((if b = true then [] else n ++ " ".toList) ++ (y ++ tagText print tag)) = l at hl
        cases rest with
        | nil =>
          simp only [fieldLines, Option.some.injEq, Prod.mk.injEq] at h2
          obtain ⟨rfl, rfl⟩ := h2
          exact .last (fieldText_end hl)
        | cons n' p' b' t' tag' rest' =>
          cases z with
          | nil =>
            simp only [fieldLines] at h2
            split at h2
            · exact absurd h2 (by simp)
            split at h2
            · exact absurd h2 (by simp)
            simp at h2
          | cons z zs =>
            rw [joinLines_cons]
            have hsp : "; ".toList = [';', ' '] := by decide +kernel
            rw [hsp]
            have := FieldsText.cons hl (fieldsText_gap hr)
            simpa using this

end

end Verif.GenTypeName
