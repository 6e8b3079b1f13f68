import Verif.Lemmas.GenTypeName
import Verif.Lemmas.GoType
import Verif.Lemmas.GoText

/-!
More on the texts for types: they are closed, they stay, and the aliases in them are names.
-/

set_option linter.unusedSimpArgs false

namespace Verif.GenTypeName

open Verif.GoType Verif.GenNames
open Verif.GoText (Neutral Closed Inside Plain Ident neutral_plain closing)

/-! ### closed texts -/

theorem word_plain {c : Char} (h : wordChar c = true) : Plain c := by
  simp only [Plain, List.mem_cons, List.not_mem_nil, or_false, not_or]
  refine ⟨?_, ?_, ?_, ?_, ?_, ?_, ?_, ?_⟩ <;> (rintro rfl; exact absurd h (by decide))

theorem name_neutral {x : Text} (h : Name x) : Neutral x := neutral_plain fun c hc => word_plain (ident_word h.1 c hc)

theorem gap_neutral {g : Text} (h : Gap g) : Neutral g := neutral_plain fun c hc => by rw [h c hc]; decide

theorem cons_neutral {c : Char} {x : Text} (hc : Plain c) (h : Neutral x) : Neutral (c :: x) := by
  have h1 : Neutral [c] := neutral_plain fun d hd => by rw [List.mem_singleton.1 hd]; exact hc
  exact h1.append h

theorem bracket_neutral {o c : Char} {s r : Text} (ho : closing o = some c) (hs : Neutral s) (hr : Neutral r) :
    Neutral (o :: (s ++ c :: r)) := (Closed.bracket ho hs.closed hr.closed).neutral

theorem hexDigit_fine {c : Char} {d : Nat} (h : hexDigit c = some d) : c ≠ '"' ∧ c ≠ '\\' ∧ c ≠ '\n' := by
  refine ⟨?_, ?_, ?_⟩
  · rintro rfl; rw [show hexDigit '"' = none by decide] at h; simp at h
  · rintro rfl; rw [show hexDigit '\\' = none by decide] at h; simp at h
  · rintro rfl; rw [show hexDigit '\n' = none by decide] at h; simp at h

theorem hex_inside {h : Text} {n : Nat} (hh : Hex h n) : ∀ {s}, Inside s → Inside (h ++ s) := by
  induction hh with
  | nil => intro s hs; exact hs
  | @snoc h n c d _ hd ih =>
    intro s hs
    obtain ⟨h1, h2, h3⟩ := hexDigit_fine hd
    have := ih (Inside.char h1 h2 h3 hs)
    simpa using this

theorem interpreted_inside {s x : Text} (h : Interpreted s x) : Inside s := by
  induction h with
  | nil => exact .nil
  | char h1 h2 h3 _ ih => exact .char h1 h2 h3 ih
  | @escape e c s x hm _ ih =>
    refine .escape ?_ ih
    have : ∀ p ∈ escapes, p.1 ≠ '\n' := by decide +kernel
    exact this _ hm
  | byte _ hh _ _ ih => exact .escape (by decide) (hex_inside hh ih)
  | little _ hh _ ih => exact .escape (by decide) (hex_inside hh ih)
  | big _ hh _ ih => exact .escape (by decide) (hex_inside hh ih)

theorem str_neutral {x v : Text} (h : Str x v) : Neutral x := by
  cases h with
  | raw h => exact (Closed.raw h .nil).neutral
  | interpreted h => exact (Closed.literal (interpreted_inside h) .nil).neutral

theorem tag_neutral {w tag : Text} (h : TagText w tag) : Neutral w := by
  cases h with
  | none => exact .nil
  | some hg hx => exact (gap_neutral hg).append (str_neutral hx)

mutual

theorem type_neutral {e : Env} : {x : Text} → {t : Ty} → TypeText e x t → Neutral x
  | _, _, .predeclared h _ _ _ => name_neutral (predeclared_name _ h)
  | _, _, .own h _ _ _ => name_neutral h
  | _, _, .imported h _ _ h' _ => (name_neutral h).append (cons_neutral (by decide) (name_neutral h'))
  | _, _, .pointer h => cons_neutral (by decide) (type_neutral h)
  | _, _, .slice h => bracket_neutral (s := []) (by decide) .nil (type_neutral h)
  | _, _, .array hd h => bracket_neutral (by decide)
      (neutral_plain fun c hc => word_plain (by
        have := hd.digits.2 c hc
        simp [wordChar, Char.isAlphanum, this])) (type_neutral h)
  | _, _, .map h h' =>
    have h1 : Neutral "map".toList := neutral_plain (by decide +kernel)
    h1.append (bracket_neutral (o := '[') (by decide) (type_neutral h) (type_neutral h'))
  | _, _, .struct hg h =>
    have h1 : Neutral "struct".toList := neutral_plain (by decide +kernel)
    h1.append ((gap_neutral hg).append (bracket_neutral (by decide) (fields_neutral h) .nil))
  | _, _, .iface hg hg' =>
    have h1 : Neutral "interface".toList := neutral_plain (by decide +kernel)
    h1.append ((gap_neutral hg).append (bracket_neutral (by decide) (gap_neutral hg') .nil))

theorem fields_neutral {e : Env} : {x : Text} → {fs : Fields} → FieldsText e x fs → Neutral x
  | _, _, .nil hg => gap_neutral hg
  | _, _, .last h => field_neutral h
  | _, _, .cons h h' => (field_neutral h).append (cons_neutral (by decide) (fields_neutral h'))

theorem field_neutral {e : Env} : {x n p : Text} → {b : Bool} → {t : Ty} → {tag : Text} → FieldText e x n p b t tag → Neutral x
  | _, _, _, _, _, _, .named h1 h2 h3 _ h5 h6 h7 =>
    (gap_neutral h1).append ((name_neutral h2).append ((gap_neutral h3).append ((type_neutral h5).append
      ((tag_neutral h6).append (gap_neutral h7)))))
  | _, _, _, _, _, _, .embedded h1 h2 _ h4 h5 =>
    (gap_neutral h1).append ((type_neutral h2).append ((tag_neutral h4).append (gap_neutral h5)))

end

/-! ### the same text again -/

theorem pkgAlias_again {m M : Imports} {f path a m'} (hm : Table m) (hM : Table M) (h : pkgAlias m f path = some (a, m'))
    (hs : ∀ i ∈ m', i ∈ M) (f' : Nat) : pkgAlias M f' path = some (a, M) := by
  obtain ⟨_, h1, h2, _⟩ := Verif.Props.GenNames.pkgAlias_spec hm.1 hm.2 h
  have h3 := mem_lookup hM.1.keys (hs _ h2)
  have h4 := h1 _ h2
  cases a with
  | nil => exact absurd rfl h4
  | cons c cs =>
    unfold pkgAlias
    simp only
    rw [h3]

mutual

theorem typeName_again (print : Char → Bool) (own : Text) (f f' : Nat) {M : Imports} (hM : Table M) : (t : Ty) →
    {m m' : Imports} → {x : Text} → Table m → typeName print own f t m = some (x, m') → (∀ i ∈ m', i ∈ M) →
    typeName print own f' t M = some (x, M)
  | .pointer t, m, m', x, hm, h, hs => by
    simp only [typeName] at h ⊢
    split at h
    · exact absurd h (by simp)
    · rename_i y m1 h1
      simp only [Option.some.injEq, Prod.mk.injEq] at h
      obtain ⟨rfl, rfl⟩ := h
      rw [typeName_again print own f f' hM t hm h1 hs]
  | .slice t, m, m', x, hm, h, hs => by
    simp only [typeName] at h ⊢
    split at h
    · exact absurd h (by simp)
    · rename_i y m1 h1
      simp only [Option.some.injEq, Prod.mk.injEq] at h
      obtain ⟨rfl, rfl⟩ := h
      rw [typeName_again print own f f' hM t hm h1 hs]
  | .array n t, m, m', x, hm, h, hs => by
    simp only [typeName] at h ⊢
    split at h
    · exact absurd h (by simp)
    · rename_i y m1 h1
      simp only [Option.some.injEq, Prod.mk.injEq] at h
      obtain ⟨rfl, rfl⟩ := h
      rw [typeName_again print own f f' hM t hm h1 hs]
  | .map k t, m, m', x, hm, h, hs => by
    simp only [typeName] at h ⊢
    split at h
    · exact absurd h (by simp)
    · rename_i y m1 h1
      split at h
      · exact absurd h (by simp)
      · rename_i z m2 h2
        simp only [Option.some.injEq, Prod.mk.injEq] at h
        obtain ⟨rfl, rfl⟩ := h
        obtain ⟨a, b⟩ := typeName_table print own f k hm h1
        obtain ⟨c, d⟩ := typeName_table print own f t a h2
        simp only [typeName_again print own f f' hM k hm h1 (fun i hi => hs i (d i hi)),
          typeName_again print own f f' hM t a h2 hs]
  | .struct fs, m, m', x, hm, h, hs => by
    simp only [typeName] at h ⊢
    split at h
    · exact absurd h (by simp)
    · rename_i y m1 h1
      simp only [Option.some.injEq, Prod.mk.injEq] at h
      obtain ⟨rfl, rfl⟩ := h
      rw [fieldLines_again print own f f' hM fs hm h1 hs]
  | .iface, m, m', x, hm, h, hs => by
    simp only [typeName, Option.some.injEq, Prod.mk.injEq, and_true] at h ⊢
    exact h.1
  | .other s, m, m', x, hm, h, hs => by
    simp only [typeName, Option.some.injEq, Prod.mk.injEq, and_true] at h ⊢
    exact h.1
  | .named p n, m, m', x, hm, h, hs => by
    simp only [typeName] at h ⊢
    split at h
    · rename_i hc
      rw [if_pos hc]
      simp only [Option.some.injEq, Prod.mk.injEq, and_true] at h ⊢
      exact h.1
    rename_i hc
    rw [if_neg hc]
    split at h
    · rename_i hc
      rw [if_pos hc]
      simp only [Option.some.injEq, Prod.mk.injEq, and_true] at h ⊢
      exact h.1
    rename_i hc
    rw [if_neg hc]
    split at h
    · exact absurd h (by simp)
    · rename_i a m1 h1
      simp only [Option.some.injEq, Prod.mk.injEq] at h
      obtain ⟨rfl, rfl⟩ := h
      rw [pkgAlias_again hm hM h1 hs f']

theorem fieldLines_again (print : Char → Bool) (own : Text) (f f' : Nat) {M : Imports} (hM : Table M) : (fs : Fields) →
    {m m' : Imports} → {ls : List Text} → Table m → fieldLines print own f fs m = some (ls, m') → (∀ i ∈ m', i ∈ M) →
    fieldLines print own f' fs M = some (ls, M)
  | .nil, m, m', ls, hm, h, hs => by
    simp only [fieldLines, Option.some.injEq, Prod.mk.injEq, and_true] at h ⊢
    exact h.1
  | .cons n p b t tag rest, m, m', ls, hm, h, hs => by
    simp only [fieldLines] at h ⊢
    split at h
    · exact absurd h (by simp)
    · rename_i y m1 h1
      split at h
      · exact absurd h (by simp)
      · rename_i z m2 h2
        simp only [Option.some.injEq, Prod.mk.injEq] at h
        obtain ⟨rfl, rfl⟩ := h
        obtain ⟨a, _⟩ := typeName_table print own f t hm h1
        obtain ⟨c, d⟩ := fieldLines_table print own f rest a h2
        simp only [typeName_again print own f f' hM t hm h1 (fun i hi => hs i (d i hi)),
          fieldLines_again print own f f' hM rest a h2 hs]

end

/-! ### aliases are names -/

/-- The last element of a path gives a name: its characters are letters, digits, underscores, periods and hyphens, it does not
begin with a digit, and it is no keyword. -/
structure BaseFine (b : Text) : Prop where
  chars : ∀ c ∈ b, wordChar c = true ∨ c = '.' ∨ c = '-'
  first : ∃ c s, b = c :: s ∧ c.isDigit = false
  keyword : b ∉ keywords

theorem keyword_letters : ∀ k ∈ keywords, ∀ c ∈ k, c ≠ '_' ∧ c.isDigit = false := by decide +kernel

theorem fix_chars {b : Text} (h : ∀ c ∈ b, wordChar c = true ∨ c = '.' ∨ c = '-') : ∀ c ∈ fixPkgAlias b, wordChar c = true := by
  have h1 : ∀ c ∈ b.map (fun c => if c = '.' || c = '-' then '_' else c), wordChar c = true := by
    intro c hc
    obtain ⟨d, hd, rfl⟩ := List.mem_map.1 hc
    by_cases hp : (d = '.' || d = '-') = true
    · simp only [hp, if_true]; decide
    · simp only [hp, if_false]
      simp only [Bool.or_eq_true, decide_eq_true_eq, not_or] at hp
      rcases h d hd with h2 | h2 | h2
      · simpa using h2
      · exact absurd h2 hp.1
      · exact absurd h2 hp.2
  unfold fixPkgAlias
  simp only
  split
  · intro c hc
    rcases List.mem_cons.1 hc with rfl | hc
    · decide
    · exact h1 c hc
  · exact h1

theorem fix_first {b : Text} (h : ∃ c s, b = c :: s ∧ c.isDigit = false) : ∃ c s, fixPkgAlias b = c :: s ∧ c.isDigit = false := by
  obtain ⟨c, s, rfl, hc⟩ := h
  unfold fixPkgAlias
  simp only
  split
  · exact ⟨_, _, rfl, by decide⟩
  · refine ⟨_, _, rfl, ?_⟩
    by_cases hp : (c = '.' || c = '-') = true
    · simp only [hp, if_true]; decide
    · simpa [hp] using hc

theorem fix_keyword {b : Text} (hb : b ∉ keywords) : fixPkgAlias b ∉ keywords := by
  intro hk
  have h1 := keyword_letters _ hk
  unfold fixPkgAlias at hk h1
  simp only at hk h1
  split at hk
  · exact absurd (h1 '_' (by split <;> simp_all)) (by simp)
  · rename_i hv
    have h2 : b.map (fun c => if c = '.' || c = '-' then '_' else c) = b := by
      have h3 : ∀ c ∈ b, (if c = '.' || c = '-' then '_' else c) = c := by
        intro c hc
        by_cases hp : (c = '.' || c = '-') = true
        · have h4 : '_' ∈ b.map (fun c => if c = '.' || c = '-' then '_' else c) :=
            List.mem_map.2 ⟨c, hc, by simp only [hp, if_true]⟩
          exact absurd rfl (keyword_letters _ hk '_' h4).1
        · simp only [hp, if_false]; simp
      have h5 := List.map_congr_left (f := fun c => if c = '.' || c = '-' then '_' else c) (g := id) h3
      simpa using h5
    rw [h2] at hk
    exact hb hk

theorem candidate_name {b : Text} (h : BaseFine b) (i : Nat) : Name (candidate (fixPkgAlias b) i) := by
  obtain ⟨c, s, hc, hd⟩ := fix_first h.first
  have hw := fix_chars h.chars
  have hdig : ∀ c ∈ itoaChars i, wordChar c = true := by
    intro c hc
    simp [wordChar, Char.isAlphanum, itoa_digits i c hc]
  have hword : ∀ x : Text, (∀ c ∈ x, wordChar c = true) → ∀ c ∈ x, c.isAlphanum = true ∨ c = '_' := by
    intro x hx c hc
    have := hx c hc
    simpa [wordChar] using this
  unfold candidate
  split
  · refine ⟨⟨⟨c, s ++ itoaChars i, by rw [hc]; rfl, hd⟩, hword _ ?_⟩, ?_⟩
    · intro d hd
      rcases List.mem_append.1 hd with hd | hd
      · exact hw d hd
      · exact hdig d hd
    · intro hk
      cases hi : itoaChars i with
      | nil => exact itoaChars_ne_nil i hi
      | cons d ds =>
        have h1 := (keyword_letters _ hk d (by rw [hi]; simp)).2
        rw [itoa_digits i d (by rw [hi]; simp)] at h1
        exact absurd h1 (by simp)
  · exact ⟨⟨⟨c, s, hc, hd⟩, hword _ hw⟩, fix_keyword h.keyword⟩

theorem pkgAlias_name {m m' : Imports} {f path a} (h : pkgAlias m f path = some (a, m')) (hm : ∀ i ∈ m, Name i.2)
    (hb : BaseFine (pathBase (processVendoring path))) : ∀ i ∈ m', Name i.2 := by
  unfold pkgAlias at h
  simp only at h
  have hloop : ∀ {f i r}, aliasLoop m (processVendoring path) (fixPkgAlias (pathBase (processVendoring path))) f i = some r →
      ∀ j ∈ r.2, Name j.2 := by
    intro f
    induction f with
    | zero => intro i r h; simp [aliasLoop] at h
    | succ f ih =>
      intro i r h
      simp only [aliasLoop] at h
      split at h
      · exact ih h
      · simp only [Option.some.injEq] at h
        rw [← h]
        intro j hj
        rcases List.mem_cons.1 hj with rfl | hj
        · exact candidate_name hb i
        · exact hm j (List.mem_filter.1 hj).1
  split at h
  · simp only [Option.some.injEq, Prod.mk.injEq] at h
    rw [← h.2]
    exact hm
  · exact hloop h

end Verif.GenTypeName
