import Verif.Spec.GoType

/-!
The grammar of types is unambiguous: a text denotes at most one type.
-/

set_option linter.unusedSimpArgs false

namespace Verif.GoType

open Verif.GoText (Ident)

/-- A text which does not begin with a character of a kind. -/
def NoHead (P : Char → Bool) (r : Text) : Prop := ∀ c cs, r = c :: cs → P c = false

theorem span_eq {P : Char → Bool} : ∀ {a b r s : Text}, (∀ c ∈ a, P c = true) → (∀ c ∈ b, P c = true) → NoHead P r →
    NoHead P s → a ++ r = b ++ s → a = b ∧ r = s
  | [], [], r, s, _, _, _, _, h => ⟨rfl, by simpa using h⟩
  | [], c :: b, r, s, _, hb, hr, _, h => by
    have h1 := hr c (b ++ s) (by simpa using h)
    rw [hb c (by simp)] at h1
    exact absurd h1 (by simp)
  | c :: a, [], r, s, ha, _, _, hs, h => by
    have h1 := hs c (a ++ r) (by simpa using h.symm)
    rw [ha c (by simp)] at h1
    exact absurd h1 (by simp)
  | c :: a, d :: b, r, s, ha, hb, hr, hs, h => by
    simp only [List.cons_append, List.cons.injEq] at h
    obtain ⟨rfl, h⟩ := h
    obtain ⟨rfl, rfl⟩ := span_eq (fun x hx => ha x (by simp [hx])) (fun x hx => hb x (by simp [hx])) hr hs h
    exact ⟨rfl, rfl⟩

theorem noHead_nil {P : Char → Bool} : NoHead P [] := by intro c cs h; simp at h

theorem noHead_cons {P : Char → Bool} {c : Char} {cs : Text} (h : P c = false) : NoHead P (c :: cs) := by
  intro d ds h'
  simp only [List.cons.injEq] at h'
  rw [← h'.1]
  exact h

/-- The characters of names. -/
def wordChar (c : Char) : Bool := c.isAlphanum || c = '_'

/-- Behind a name: neither a further character of a name nor a period. -/
def stopChar (c : Char) : Bool := wordChar c || c = '.'

def Stop (r : Text) : Prop := NoHead stopChar r

theorem Stop.word {r : Text} (h : Stop r) : NoHead wordChar r := by
  intro c cs hr
  have := h c cs hr
  simp only [stopChar, Bool.or_eq_false_iff] at this
  exact this.1

theorem ident_word {x : Text} (h : Ident x) : ∀ c ∈ x, wordChar c = true := by
  intro c hc
  simp only [wordChar, Bool.or_eq_true, decide_eq_true_eq]
  exact h.2 c hc

theorem ident_cons {x : Text} (h : Ident x) : ∃ c cs, x = c :: cs ∧ wordChar c = true := by
  obtain ⟨⟨c, s, rfl, _⟩, _⟩ := id h
  exact ⟨c, s, rfl, ident_word h c (by simp)⟩

theorem predeclared_name : ∀ x ∈ predeclared, Name x := by
  have h : ∀ x ∈ predeclared, (∃ c s, x = c :: s ∧ c.isDigit = false) ∧ (∀ c ∈ x, c.isAlphanum = true ∨ c = '_') ∧
      x ∉ keywords := by
    have h1 : ∀ x ∈ predeclared, (x.head?.map Char.isDigit = some false) ∧ (∀ c ∈ x, c.isAlphanum = true ∨ c = '_') ∧
        x ∉ keywords := by decide +kernel
    intro x hx
    obtain ⟨h2, h3, h4⟩ := h1 x hx
    refine ⟨?_, h3, h4⟩
    cases x with
    | nil => simp at h2
    | cons c s => exact ⟨c, s, rfl, by simpa using h2⟩
  intro x hx
  obtain ⟨h1, h2, h3⟩ := h x hx
  exact ⟨⟨h1, h2⟩, h3⟩

/-! ### literals -/

theorem hex_unique {h : Text} {n : Nat} (h1 : Hex h n) : ∀ {k}, Hex h k → n = k := by
  induction h1 with
  | nil =>
    intro k h2
    generalize hx : ([] : Text) = x at h2
    cases h2 with
    | nil => rfl
    | snoc _ _ => simp at hx
  | @snoc h n c d _ hd ih =>
    intro k h2
    generalize hx : h ++ [c] = x at h2
    cases h2 with
    | nil => simp at hx
    | @snoc h' n' c' d' h3 hd' =>
      have := List.append_inj' hx rfl
      simp only [List.cons.injEq, and_true] at this
      obtain ⟨rfl, rfl⟩ := this
      rw [hd] at hd'
      simp only [Option.some.injEq] at hd'
      rw [ih h3, hd']

theorem char_eq {c d : Char} (h : c.toNat = d.toNat) : c = d := Char.toNat_inj.1 h

theorem hex_char {h h' r r' : Text} {c d : Char} {k : Nat} (hl : h.length = k) (hl' : h'.length = k) (h1 : Hex h c.toNat)
    (h2 : Hex h' d.toNat) (he : h ++ r = h' ++ r') : h = h' ∧ c = d ∧ r = r' := by
  obtain ⟨rfl, rfl⟩ := List.append_inj he (by rw [hl, hl'])
  exact ⟨rfl, char_eq (hex_unique h1 h2), rfl⟩

theorem escapes_fun {e c d : Char} (h1 : (e, c) ∈ escapes) (h2 : (e, d) ∈ escapes) : c = d := by
  have h : ∀ p ∈ escapes, ∀ q ∈ escapes, p.1 = q.1 → p.2 = q.2 := by decide +kernel
  exact h _ h1 _ h2 rfl

theorem escapes_no {e c : Char} (h : (e, c) ∈ escapes) : e ≠ 'x' ∧ e ≠ 'u' ∧ e ≠ 'U' := by
  have h' : ∀ p ∈ escapes, p.1 ≠ 'x' ∧ p.1 ≠ 'u' ∧ p.1 ≠ 'U' := by decide +kernel
  exact h' _ h

theorem interpreted_unique {s x : Text} (h1 : Interpreted s x) : ∀ {s' x' r r'}, Interpreted s' x' →
    s ++ '"' :: r = s' ++ '"' :: r' → s = s' ∧ x = x' ∧ r = r' := by
  induction h1 with
  | nil =>
    intro s' x' r r' h2 he
    cases h2 with
    | nil => simp at he; exact ⟨rfl, rfl, he⟩
    | char h _ _ _ => simp at he; exact absurd he.1.symm h
    | escape _ _ => simp at he
    | byte _ _ _ _ => simp at he
    | little _ _ _ => simp at he
    | big _ _ _ => simp at he
  | @char c s x hq hb hn _ ih =>
    intro s' x' r r' h2 he
    cases h2 with
    | nil => simp at he; exact absurd he.1 hq
    | char h _ _ h3 =>
      simp only [List.cons_append, List.cons.injEq] at he
      obtain ⟨rfl, he⟩ := he
      obtain ⟨rfl, rfl, rfl⟩ := ih h3 he
      exact ⟨rfl, rfl, rfl⟩
    | escape _ _ => simp at he; exact absurd he.1 hb
    | byte _ _ _ _ => simp at he; exact absurd he.1 hb
    | little _ _ _ => simp at he; exact absurd he.1 hb
    | big _ _ _ => simp at he; exact absurd he.1 hb
  | @escape e c s x hm _ ih =>
    intro s' x' r r' h2 he
    cases h2 with
    | nil => simp at he
    | char _ h _ _ => simp at he; exact absurd he.1.symm h
    | escape hm' h3 =>
      simp only [List.cons_append, List.cons.injEq, true_and] at he
      obtain ⟨rfl, he⟩ := he
      obtain ⟨rfl, rfl, rfl⟩ := ih h3 he
      exact ⟨rfl, by rw [escapes_fun hm hm'], rfl⟩
    | byte _ _ _ _ => simp at he; exact absurd he.1 (escapes_no hm).1
    | little _ _ _ => simp at he; exact absurd he.1 (escapes_no hm).2.1
    | big _ _ _ => simp at he; exact absurd he.1 (escapes_no hm).2.2
  | @byte h s x c hl hh hc _ ih =>
    intro s' x' r r' h2 he
    cases h2 with
    | nil => simp at he
    | char _ h _ _ => simp at he; exact absurd he.1.symm h
    | escape hm' h3 => simp at he; exact absurd he.1.symm (escapes_no hm').1
    | byte hl' hh' _ h3 =>
      simp only [List.cons_append, List.cons.injEq, true_and, List.append_assoc] at he
      obtain ⟨rfl, rfl, he⟩ := hex_char hl hl' hh hh' he
      obtain ⟨rfl, rfl, rfl⟩ := ih h3 he
      exact ⟨rfl, rfl, rfl⟩
    | little _ _ _ => simp at he
    | big _ _ _ => simp at he
  | @little h s x c hl hh _ ih =>
    intro s' x' r r' h2 he
    cases h2 with
    | nil => simp at he
    | char _ h _ _ => simp at he; exact absurd he.1.symm h
    | escape hm' h3 => simp at he; exact absurd he.1.symm (escapes_no hm').2.1
    | byte _ _ _ _ => simp at he
    | little hl' hh' h3 =>
      simp only [List.cons_append, List.cons.injEq, true_and, List.append_assoc] at he
      obtain ⟨rfl, rfl, he⟩ := hex_char hl hl' hh hh' he
      obtain ⟨rfl, rfl, rfl⟩ := ih h3 he
      exact ⟨rfl, rfl, rfl⟩
    | big _ _ _ => simp at he
  | @big h s x c hl hh _ ih =>
    intro s' x' r r' h2 he
    cases h2 with
    | nil => simp at he
    | char _ h _ _ => simp at he; exact absurd he.1.symm h
    | escape hm' h3 => simp at he; exact absurd he.1.symm (escapes_no hm').2.2
    | byte _ _ _ _ => simp at he
    | little _ _ _ => simp at he
    | big hl' hh' h3 =>
      simp only [List.cons_append, List.cons.injEq, true_and, List.append_assoc] at he
      obtain ⟨rfl, rfl, he⟩ := hex_char hl hl' hh hh' he
      obtain ⟨rfl, rfl, rfl⟩ := ih h3 he
      exact ⟨rfl, rfl, rfl⟩

theorem str_unique {x v y u r s : Text} (h1 : Str x v) (h2 : Str y u) (he : x ++ r = y ++ s) : x = y ∧ v = u ∧ r = s := by
  cases h1 with
  | @raw a ha =>
    cases h2 with
    | @raw b hb =>
      simp only [List.cons_append, List.append_assoc, List.cons.injEq, true_and, List.nil_append] at he
      obtain ⟨rfl, h3⟩ := span_eq (P := fun c => c ≠ '`') (a := a) (b := b)
        (by intro c hc; simp; rintro rfl; exact ha hc) (by intro c hc; simp; rintro rfl; exact hb hc)
        (noHead_cons (by simp)) (noHead_cons (by simp)) he
      exact ⟨rfl, rfl, by simpa using h3⟩
    | interpreted _ => simp at he
  | @interpreted a v ha =>
    cases h2 with
    | raw _ => simp at he
    | @interpreted b u hb =>
      simp only [List.cons_append, List.append_assoc, List.cons.injEq, true_and, List.nil_append] at he
      obtain ⟨rfl, rfl, rfl⟩ := interpreted_unique ha hb he
      exact ⟨rfl, rfl, rfl⟩

theorem str_head {x v : Text} (h : Str x v) : ∃ c cs, x = c :: cs ∧ (c = '`' ∨ c = '"') := by
  cases h with
  | raw _ => exact ⟨_, _, rfl, .inl rfl⟩
  | interpreted _ => exact ⟨_, _, rfl, .inr rfl⟩

/-! ### white space and tags -/

theorem gap_span {g g' r s : Text} (hg : Gap g) (hg' : Gap g') (hr : NoHead (· = ' ') r) (hs : NoHead (· = ' ') s)
    (h : g ++ r = g' ++ s) : g = g' ∧ r = s :=
  span_eq (P := (· = ' ')) (fun c hc => by simp [hg c hc]) (fun c hc => by simp [hg' c hc]) hr hs h

/-- Behind a field: a semicolon or a brace. -/
def Shut (r : Text) : Prop := ∃ c cs, r = c :: cs ∧ (c = ';' ∨ c = '}')

theorem Shut.noSpace {r : Text} (h : Shut r) : NoHead (· = ' ') r := by
  obtain ⟨c, cs, rfl, rfl | rfl⟩ := h <;> exact noHead_cons (by decide)

theorem str_noSpace {x v r : Text} (h : Str x v) : NoHead (· = ' ') (x ++ r) := by
  obtain ⟨c, cs, rfl, rfl | rfl⟩ := str_head h <;> exact noHead_cons (by decide)

theorem str_not_shut {x v r s : Text} (h : Str x v) (hs : Shut s) : x ++ r ≠ s := by
  obtain ⟨c, cs, rfl, h1⟩ := str_head h
  obtain ⟨d, ds, rfl, h2⟩ := hs
  intro he
  simp only [List.cons_append, List.cons.injEq] at he
  obtain ⟨rfl, _⟩ := he
  rcases h1 with rfl | rfl <;> simp at h2

theorem tag_unique {w tag g w' tag' g' r s : Text} (h1 : TagText w tag) (hg : Gap g) (h2 : TagText w' tag') (hg' : Gap g')
    (hr : Shut r) (hs : Shut s) (he : w ++ (g ++ r) = w' ++ (g' ++ s)) : w = w' ∧ tag = tag' ∧ g = g' ∧ r = s := by
  cases h1 with
  | none =>
    cases h2 with
    | none =>
      obtain ⟨rfl, rfl⟩ := gap_span hg hg' hr.noSpace hs.noSpace (by simpa using he)
      exact ⟨rfl, rfl, rfl, rfl⟩
    | @some k x tag' hk hx =>
      obtain ⟨rfl, h3⟩ := gap_span hg hk hr.noSpace (str_noSpace hx) (by simpa using he)
      exact absurd h3.symm (str_not_shut hx hr)
  | @some k x tag hk hx =>
    cases h2 with
    | none =>
      obtain ⟨rfl, h3⟩ := gap_span hk hg' (str_noSpace hx) hs.noSpace (by simpa using he)
      exact absurd h3 (str_not_shut hx hs)
    | @some k' x' tag' hk' hx' =>
      obtain ⟨rfl, h3⟩ := gap_span hk hk' (str_noSpace hx) (str_noSpace hx') (by simpa using he)
      obtain ⟨rfl, rfl, h4⟩ := str_unique hx hx' h3
      obtain ⟨rfl, rfl⟩ := gap_span hg hg' hr.noSpace hs.noSpace h4
      exact ⟨rfl, rfl, rfl, rfl⟩

/-- What follows the type of a field is no continuation of a name. -/
theorem tag_stop {w tag g r : Text} (h : TagText w tag) (hg : Gap g) (hr : Shut r) : Stop (w ++ (g ++ r)) := by
  have h1 : ∀ {k z : Text}, Gap k → Stop z → Stop (k ++ z) := by
    intro k z hk hz
    cases k with
    | nil => exact hz
    | cons c k =>
      rw [hk c (by simp)]
      exact noHead_cons (by decide)
  have h2 : Stop r := by
    obtain ⟨c, cs, rfl, rfl | rfl⟩ := hr <;> exact noHead_cons (by decide)
  cases h with
  | none => exact (h1 hg h2 : Stop (g ++ r))
  | @some k x tag hk hx =>
    rw [List.append_assoc]
    refine h1 hk ?_
    obtain ⟨c, cs, rfl, rfl | rfl⟩ := str_head hx <;> exact noHead_cons (by decide)

/-! ### the kinds of types told by the text -/

/-- The name at the beginning of a text. -/
def leadWord (z : Text) : Text := z.takeWhile wordChar

/-- The kind of the type which begins a text. -/
def kindOf (z : Text) : Nat :=
  match z with
  | '*' :: _ => 0
  | '[' :: ']' :: _ => 1
  | '[' :: _ => 2
  | z =>
    if leadWord z = "map".toList then 3
    else if leadWord z = "struct".toList then 4
    else if leadWord z = "interface".toList then 5
    else if (z.drop (leadWord z).length).head? = some '.' then 6
    else 7

/-- The cases of the grammar, numbered. -/
inductive View (e : Env) : Nat → Text → Ty → Prop
  | pointer {x t} : TypeText e x t → View e 0 ('*' :: x) (.pointer t)
  | slice {x t} : TypeText e x t → View e 1 ('[' :: ']' :: x) (.slice t)
  | array {ds n x t} : Decimal ds n → TypeText e x t → View e 2 ('[' :: (ds ++ ']' :: x)) (.array n t)
  | map {x k y t} : TypeText e x k → TypeText e y t → View e 3 ("map[".toList ++ (x ++ ']' :: y)) (.map k t)
  | struct {g x fs} : Gap g → FieldsText e x fs → View e 4 ("struct".toList ++ (g ++ '{' :: (x ++ ['}']))) (.struct fs)
  | iface {g g'} : Gap g → Gap g' → View e 5 ("interface".toList ++ (g ++ '{' :: (g' ++ ['}']))) .iface
  | imported {a p x} : Name a → e.imports a = some p → Name x → View e 6 (a ++ '.' :: x) (.named p x)
  | predeclared {x} : Name x → ¬ e.declared x → View e 7 x (.named [] x)
  | own {x} : Name x → e.declared x → View e 7 x (.named e.own x)

theorem leadWord_eq {x r : Text} (hx : ∀ c ∈ x, wordChar c = true) (hr : NoHead wordChar r) : leadWord (x ++ r) = x := by
  induction x with
  | nil =>
    cases r with
    | nil => rfl
    | cons c cs => simp [leadWord, hr c cs rfl]
  | cons c x ih =>
    have := ih (fun d hd => hx d (by simp [hd]))
    simp only [leadWord] at this ⊢
    simp [hx c (by simp), this]

theorem kindOf_word {x r : Text} (hx : ∀ c ∈ x, wordChar c = true) (hne : x ≠ []) (hr : NoHead wordChar r) :
    kindOf (x ++ r) = if x = "map".toList then 3 else if x = "struct".toList then 4 else if x = "interface".toList then 5
      else if r.head? = some '.' then 6 else 7 := by
  have h1 := leadWord_eq hx hr
  cases x with
  | nil => exact absurd rfl hne
  | cons c x =>
    have hc := hx c (by simp)
    have h2 : c ≠ '*' := by rintro rfl; exact absurd hc (by decide)
    have h3 : c ≠ '[' := by rintro rfl; exact absurd hc (by decide)
    unfold kindOf
    split
    · rename_i he; simp only [List.cons_append, List.cons.injEq] at he; exact absurd he.1 h2
    · rename_i he; simp only [List.cons_append, List.cons.injEq] at he; exact absurd he.1 h3
    · rename_i he; simp only [List.cons_append, List.cons.injEq] at he; exact absurd he.1 h3
    · rw [h1, List.drop_left]

theorem kindOf_name {x r : Text} (hx : Name x) (hr : NoHead wordChar r) :
    kindOf (x ++ r) = if r.head? = some '.' then 6 else 7 := by
  obtain ⟨c, cs, hc, _⟩ := ident_cons hx.1
  rw [kindOf_word (ident_word hx.1) (by rw [hc]; simp) hr]
  have h1 : x ≠ "map".toList := by rintro rfl; exact hx.2 (by decide +kernel)
  have h2 : x ≠ "struct".toList := by rintro rfl; exact hx.2 (by decide +kernel)
  have h3 : x ≠ "interface".toList := by rintro rfl; exact hx.2 (by decide +kernel)
  rw [if_neg h1, if_neg h2, if_neg h3]

theorem digit_not_bracket {c : Char} (h : c.isDigit = true) : c ≠ ']' := by rintro rfl; exact absurd h (by decide)

theorem gap_noWord {g r : Text} {c : Char} (hg : Gap g) (hc : wordChar c = false) : NoHead wordChar (g ++ c :: r) := by
  cases g with
  | nil => exact noHead_cons hc
  | cons d g => rw [hg d (by simp)]; exact noHead_cons (by decide)

theorem Stop.noDot {r : Text} (h : Stop r) : r.head? ≠ some '.' := by
  cases r with
  | nil => simp
  | cons c cs =>
    simp only [List.head?_cons, ne_eq, Option.some.injEq]
    rintro rfl
    exact absurd (h _ _ rfl) (by decide)

theorem view {e : Env} {x : Text} {t : Ty} (h : TypeText e x t) {r : Text} (hr : Stop r) :
    ∃ k, View e k x t ∧ kindOf (x ++ r) = k := by
  cases h with
  | predeclared h1 h2 h3 h4 =>
    refine ⟨7, .predeclared (predeclared_name _ h1) h4, ?_⟩
    rw [kindOf_name (predeclared_name _ h1) hr.word, if_neg hr.noDot]
  | own h1 h2 h3 h4 =>
    refine ⟨7, .own h1 h4, ?_⟩
    rw [kindOf_name h1 hr.word, if_neg hr.noDot]
  | imported h1 h2 h3 h4 h5 =>
    refine ⟨6, .imported h1 h3 h4, ?_⟩
    rw [List.append_assoc, List.cons_append, kindOf_name h1 (noHead_cons (by decide))]
    simp
  | pointer h => exact ⟨0, .pointer h, rfl⟩
  | slice h => exact ⟨1, .slice h, rfl⟩
  | @array ds n x t h1 h2 =>
    refine ⟨2, .array h1 h2, ?_⟩
    cases hd : ds with
    | nil => exact absurd hd h1.digits.1
    | cons c cs =>
      have := digit_not_bracket (h1.digits.2 c (by rw [hd]; simp))
      unfold kindOf
      split
      · rename_i he; simp at he
      · rename_i he; simp at he; exact absurd he.1 this
      · rfl
      · rename_i h5 h6 h7
        exact absurd rfl (h7 _)
  | @map x k y t h1 h2 =>
    refine ⟨3, .map h1 h2, ?_⟩
    have h3 : "map[".toList = "map".toList ++ ['['] := by decide +kernel
    rw [h3]
    simp only [List.append_assoc, List.cons_append, List.nil_append]
    rw [kindOf_word (by decide +kernel) (by decide +kernel) (noHead_cons (by decide)), if_pos rfl]
  | @struct g x fs h1 h2 =>
    refine ⟨4, .struct h1 h2, ?_⟩
    simp only [List.append_assoc, List.cons_append]
    rw [kindOf_word (by decide +kernel) (by decide +kernel) (gap_noWord h1 (by decide)), if_neg (by decide +kernel), if_pos rfl]
  | @iface g g' h1 h2 =>
    refine ⟨5, .iface h1 h2, ?_⟩
    simp only [List.append_assoc, List.cons_append]
    rw [kindOf_word (by decide +kernel) (by decide +kernel) (gap_noWord h1 (by decide)), if_neg (by decide +kernel),
      if_neg (by decide +kernel), if_pos rfl]

/-! ### one text, one type -/

/-- What may begin a type: nothing that ends or separates fields. -/
def Begins (c : Char) : Prop := c = '*' ∨ c = '[' ∨ wordChar c = true

theorem type_begins {e : Env} {x : Text} {t : Ty} (h : TypeText e x t) : ∃ c cs, x = c :: cs ∧ Begins c := by
  cases h with
  | predeclared h1 _ _ _ =>
    obtain ⟨c, cs, h, hw⟩ := ident_cons (predeclared_name _ h1).1
    exact ⟨c, cs, h, .inr (.inr hw)⟩
  | own h1 _ _ _ =>
    obtain ⟨c, cs, h, hw⟩ := ident_cons h1.1
    exact ⟨c, cs, h, .inr (.inr hw)⟩
  | imported h1 _ _ _ _ =>
    obtain ⟨c, cs, h, hw⟩ := ident_cons h1.1
    exact ⟨c, _, by rw [h]; rfl, .inr (.inr hw)⟩
  | pointer _ => exact ⟨_, _, rfl, .inl rfl⟩
  | slice _ => exact ⟨_, _, rfl, .inr (.inl rfl)⟩
  | array _ _ => exact ⟨_, _, rfl, .inr (.inl rfl)⟩
  | map _ _ => exact ⟨'m', _, rfl, .inr (.inr (by decide))⟩
  | struct _ _ => exact ⟨'s', _, rfl, .inr (.inr (by decide))⟩
  | iface _ _ => exact ⟨'i', _, rfl, .inr (.inr (by decide))⟩

theorem Begins.noSpace {c : Char} {cs : Text} (h : Begins c) : NoHead (· = ' ') (c :: cs) := by
  refine noHead_cons ?_
  rcases h with rfl | rfl | h
  · decide
  · decide
  · simp only [decide_eq_false_iff_not]
    rintro rfl
    exact absurd h (by decide)

theorem type_noSpace {e : Env} {x : Text} {t : Ty} (h : TypeText e x t) (r : Text) : NoHead (· = ' ') (x ++ r) := by
  obtain ⟨c, cs, rfl, hb⟩ := type_begins h
  exact hb.noSpace

theorem name_noSpace {x : Text} (h : Name x) (r : Text) : NoHead (· = ' ') (x ++ r) := by
  obtain ⟨c, cs, rfl, hw⟩ := ident_cons h.1
  exact Begins.noSpace (.inr (.inr hw))

theorem begins_not {c : Char} (h : Begins c) : c ≠ ';' ∧ c ≠ '}' ∧ c ≠ '`' ∧ c ≠ '"' := by
  rcases h with rfl | rfl | h
  · decide
  · decide
  · refine ⟨?_, ?_, ?_, ?_⟩ <;> (rintro rfl; exact absurd h (by decide))

/-- A type does not begin where a tag or the end of the field is. -/
theorem type_not_tag {e : Env} {x : Text} {t : Ty} (h : TypeText e x t) {z g' w tag g r : Text} (hg' : Gap g')
    (hw : TagText w tag) (hg : Gap g) (hr : Shut r) : g' ++ (x ++ z) ≠ w ++ (g ++ r) := by
  intro he
  obtain ⟨c, cs, rfl, hb⟩ := type_begins h
  obtain ⟨n1, n2, n3, n4⟩ := begins_not hb
  cases hw with
  | none =>
    obtain ⟨_, h2⟩ := gap_span hg' hg hb.noSpace hr.noSpace (by simpa using he)
    obtain ⟨d, ds, rfl, h3⟩ := hr
    simp only [List.cons_append, List.cons.injEq] at h2
    obtain ⟨rfl, _⟩ := h2
    exact h3.elim n1 n2
  | @some k y tag hk hy =>
    obtain ⟨_, h2⟩ := gap_span hg' hk hb.noSpace (str_noSpace hy) (by simpa using he)
    obtain ⟨d, ds, rfl, h3⟩ := str_head hy
    simp only [List.cons_append, List.cons.injEq] at h2
    obtain ⟨rfl, _⟩ := h2
    exact h3.elim n3 n4

theorem gap_head {g r : Text} (hg : Gap g) (hne : g ≠ []) : ∃ cs, g ++ r = ' ' :: cs := by
  cases g with
  | nil => exact absurd rfl hne
  | cons c g => rw [hg c (by simp)]; exact ⟨_, rfl⟩

/-- A named field and an embedded one differ. -/
theorem named_not_embedded {e : Env} {n g' x : Text} {t : Ty} {z y : Text} {u : Ty} {n' w tag g r : Text} (hn : Name n)
    (hg' : Gap g') (hne : g' ≠ []) (hx : TypeText e x t) (hy : TypeText e y u) (hu : embeddedName u = some n')
    (hw : TagText w tag) (hg : Gap g) (hr : Shut r) : n ++ (g' ++ (x ++ z)) ≠ y ++ (w ++ (g ++ r)) := by
  intro he
  obtain ⟨cs, hcs⟩ := gap_head (r := x ++ z) hg' hne
  have hsp : NoHead wordChar (g' ++ (x ++ z)) := by rw [hcs]; exact noHead_cons (by decide)
  have hst := tag_stop hw hg hr
  have hk : kindOf (n ++ (g' ++ (x ++ z))) = 7 := by
    rw [kindOf_name hn hsp, hcs]
    simp
  obtain ⟨k, hv, hk'⟩ := view hy hst
  rw [he, hk'] at hk
  subst hk
  have hword : ∀ {y}, Name y → n ++ (g' ++ (x ++ z)) = y ++ (w ++ (g ++ r)) → False := by
    intro y hy he
    obtain ⟨_, h2⟩ := span_eq (ident_word hn.1) (ident_word hy.1) hsp hst.word he
    exact type_not_tag hx hg' hw hg hr h2
  cases hv with
  | predeclared h1 _ => exact hword h1 he
  | own h1 _ => exact hword h1 he

theorem shut_stop {r : Text} (h : Shut r) : Stop r := by
  obtain ⟨c, cs, rfl, rfl | rfl⟩ := h <;> exact noHead_cons (by decide)

theorem gap_not_field {e : Env} {g x n p : Text} {b : Bool} {t : Ty} {tag : Text} (h : FieldText e x n p b t tag) (hg : Gap g)
    {r s : Text} : g ++ '}' :: r ≠ x ++ s := by
  intro he
  cases h with
  | @named k n g' x t w tag g'' h1 h2 h3 h4 h5 h6 h7 =>
    obtain ⟨_, h⟩ := gap_span hg h1 (noHead_cons (c := '}') (by decide)) (name_noSpace h2 _) (by simpa using he)
    obtain ⟨c, cs, rfl, hw⟩ := ident_cons h2.1
    simp only [List.cons_append, List.cons.injEq] at h
    exact (begins_not (.inr (.inr hw))).2.1 h.1.symm
  | @embedded k x n t w tag g'' h1 h2 h3 h4 h5 =>
    obtain ⟨_, h⟩ := gap_span hg h1 (noHead_cons (c := '}') (by decide)) (type_noSpace h2 _) (by simpa using he)
    obtain ⟨c, cs, rfl, hw⟩ := type_begins h2
    simp only [List.cons_append, List.cons.injEq] at h
    exact (begins_not hw).2.1 h.1.symm

theorem bracket_not_digit : Char.isDigit ']' = false := by decide

theorem kind_eq {e : Env} {x y r s : Text} {u : Ty} {k : Nat} (h1 : kindOf (x ++ r) = k) (h2 : TypeText e y u) (hs : Stop s)
    (he : x ++ r = y ++ s) : View e k y u := by
  obtain ⟨k', hv, hk⟩ := view h2 hs
  rw [← he, h1] at hk
  rw [hk]
  exact hv

mutual

theorem type_unique {e : Env} : {x : Text} → {t : Ty} → TypeText e x t → ∀ {y u r s}, TypeText e y u → Stop r → Stop s →
    x ++ r = y ++ s → x = y ∧ t = u ∧ r = s
  | _, _, .predeclared h1 h2 h3 h4, y, u, r, s, hu, hr, hs, he => by
    have h0 := predeclared_name _ h1
    have hv := kind_eq (by rw [kindOf_name h0 hr.word, if_neg hr.noDot]) hu hs he
    cases hv with
    | predeclared h5 _ =>
      obtain ⟨rfl, rfl⟩ := span_eq (ident_word h0.1) (ident_word h5.1) hr.word hs.word he
      exact ⟨rfl, rfl, rfl⟩
    | own h5 h6 =>
      obtain ⟨rfl, rfl⟩ := span_eq (ident_word h0.1) (ident_word h5.1) hr.word hs.word he
      exact absurd h6 h4
  | _, _, .own h0 h2 h3 h4, y, u, r, s, hu, hr, hs, he => by
    have hv := kind_eq (by rw [kindOf_name h0 hr.word, if_neg hr.noDot]) hu hs he
    cases hv with
    | predeclared h5 h6 =>
      obtain ⟨rfl, rfl⟩ := span_eq (ident_word h0.1) (ident_word h5.1) hr.word hs.word he
      exact absurd h4 h6
    | own h5 _ =>
      obtain ⟨rfl, rfl⟩ := span_eq (ident_word h0.1) (ident_word h5.1) hr.word hs.word he
      exact ⟨rfl, rfl, rfl⟩
  | _, _, .imported (a := a) (x := x) h1 h2 h3 h4 h5, y, u, r, s, hu, hr, hs, he => by
    have hv := kind_eq (k := 6) (by
      rw [List.append_assoc, List.cons_append, kindOf_name h1 (noHead_cons (by decide))]; simp) hu hs he
    generalize hk : 6 = k at hv
    cases hv with
    | @imported a' p' x' h6 h7 h8 =>
      simp only [List.append_assoc, List.cons_append] at he
      obtain ⟨rfl, he'⟩ := span_eq (ident_word h1.1) (ident_word h6.1) (noHead_cons (by decide)) (noHead_cons (by decide)) he
      simp only [List.cons.injEq, true_and] at he'
      obtain ⟨rfl, rfl⟩ := span_eq (ident_word h4.1) (ident_word h8.1) hr.word hs.word he'
      rw [h3] at h7
      simp only [Option.some.injEq] at h7
      subst h7
      exact ⟨rfl, rfl, rfl⟩
    | _ => omega
  | _, _, .pointer (x := x) h, y, u, r, s, hu, hr, hs, he => by
    have hv := kind_eq (k := 0) rfl hu hs he
    generalize hk : 0 = k at hv
    cases hv with
    | pointer h' =>
      simp only [List.cons_append, List.cons.injEq, true_and] at he
      obtain ⟨rfl, rfl, rfl⟩ := type_unique h h' hr hs he
      exact ⟨rfl, rfl, rfl⟩
    | _ => omega
  | _, _, .slice (x := x) h, y, u, r, s, hu, hr, hs, he => by
    have hv := kind_eq (k := 1) rfl hu hs he
    generalize hk : 1 = k at hv
    cases hv with
    | slice h' =>
      simp only [List.cons_append, List.cons.injEq, true_and] at he
      obtain ⟨rfl, rfl, rfl⟩ := type_unique h h' hr hs he
      exact ⟨rfl, rfl, rfl⟩
    | _ => omega
  | _, _, .array (ds := ds) (n := n) (x := x) (t := t) hd h, y, u, r, s, hu, hr, hs, he => by
    obtain ⟨k', hv', hk'⟩ := view (TypeText.array hd h) hr
    have hk2 : k' = 2 := by
      generalize hz : ('[' :: (ds ++ ']' :: x)) = z at hv'
      cases hv' with
      | array _ _ => rfl
    have hv := kind_eq (by rw [hk', hk2]) hu hs he
    generalize hk : 2 = k at hv
    cases hv with
    | @array ds' n' x' t' hd' h' =>
      simp only [List.cons_append, List.append_assoc, List.cons.injEq, true_and] at he
      obtain ⟨rfl, he'⟩ := span_eq (P := Char.isDigit) hd.digits.2 hd'.digits.2 (noHead_cons bracket_not_digit)
        (noHead_cons bracket_not_digit) he
      simp only [List.cons.injEq, true_and] at he'
      obtain ⟨rfl, rfl, rfl⟩ := type_unique h h' hr hs he'
      have := hd.value.symm.trans hd'.value
      subst this
      exact ⟨rfl, rfl, rfl⟩
    | _ => omega
  | _, _, .map (x := x) (k := k) (y := y') (t := t) h1 h2, y, u, r, s, hu, hr, hs, he => by
    obtain ⟨k', hv', hk'⟩ := view (TypeText.map h1 h2) hr
    have hk2 : k' = 3 := by
      generalize hz : ("map[".toList ++ (x ++ ']' :: y')) = z at hv'
      cases hv' with
      | map _ _ => rfl
    have hv := kind_eq (by rw [hk', hk2]) hu hs he
    generalize hk : 3 = k at hv
    cases hv with
    | map h1' h2' =>
      simp only [List.append_assoc, List.append_cancel_left_eq, List.cons_append] at he
      obtain ⟨rfl, rfl, he'⟩ := type_unique h1 h1' (noHead_cons (by decide)) (noHead_cons (by decide)) he
      simp only [List.cons.injEq, true_and] at he'
      obtain ⟨rfl, rfl, rfl⟩ := type_unique h2 h2' hr hs he'
      exact ⟨rfl, rfl, rfl⟩
    | _ => omega
  | _, _, .struct (g := g) (x := x) (fs := fs) hg h, y, u, r, s, hu, hr, hs, he => by
    obtain ⟨k', hv', hk'⟩ := view (TypeText.struct hg h) hr
    have hk2 : k' = 4 := by
      generalize hz : ("struct".toList ++ (g ++ '{' :: (x ++ ['}']))) = z at hv'
      cases hv' with
      | struct _ _ => rfl
    have hv := kind_eq (by rw [hk', hk2]) hu hs he
    generalize hk : 4 = k at hv
    cases hv with
    | struct hg' h' =>
      simp only [List.append_assoc, List.append_cancel_left_eq, List.cons_append, List.nil_append] at he
      obtain ⟨rfl, he'⟩ := gap_span hg hg' (noHead_cons (by decide)) (noHead_cons (by decide)) he
      simp only [List.cons.injEq, true_and] at he'
      obtain ⟨rfl, rfl, he''⟩ := fields_unique h h' he'
      exact ⟨rfl, rfl, he''⟩
    | _ => omega
  | _, _, .iface (g := g) (g' := g') hg hg', y, u, r, s, hu, hr, hs, he => by
    obtain ⟨k', hv', hk'⟩ := view (e := e) (TypeText.iface hg hg') hr
    have hk2 : k' = 5 := by
      generalize hz : ("interface".toList ++ (g ++ '{' :: (g' ++ ['}']))) = z at hv'
      cases hv' with
      | iface _ _ => rfl
    have hv := kind_eq (by rw [hk', hk2]) hu hs he
    generalize hk : 5 = k at hv
    cases hv with
    | iface hq hq' =>
      simp only [List.append_assoc, List.append_cancel_left_eq, List.cons_append, List.nil_append] at he
      obtain ⟨rfl, he'⟩ := gap_span hg hq (noHead_cons (by decide)) (noHead_cons (by decide)) he
      simp only [List.cons.injEq, true_and] at he'
      obtain ⟨rfl, he''⟩ := gap_span hg' hq' (noHead_cons (by decide)) (noHead_cons (by decide)) he'
      simp only [List.cons.injEq, true_and] at he''
      exact ⟨rfl, rfl, he''⟩
    | _ => omega

theorem fields_unique {e : Env} : {x : Text} → {fs : Fields} → FieldsText e x fs → ∀ {y fs' r s}, FieldsText e y fs' →
    x ++ '}' :: r = y ++ '}' :: s → x = y ∧ fs = fs' ∧ r = s
  | _, _, .nil hg, y, fs', r, s, hu, he => by
    cases hu with
    | nil hg' =>
      obtain ⟨rfl, he'⟩ := gap_span hg hg' (noHead_cons (by decide)) (noHead_cons (by decide)) he
      simp only [List.cons.injEq, true_and] at he'
      exact ⟨rfl, rfl, he'⟩
    | last h => exact absurd he (gap_not_field h hg)
    | cons h _ => exact absurd (by simpa using he) (gap_not_field h hg)
  | _, _, .last h, y, fs', r, s, hu, he => by
    cases hu with
    | nil hg' => exact absurd he.symm (gap_not_field h hg')
    | last h' =>
      obtain ⟨rfl, rfl, rfl, rfl, rfl, rfl, he'⟩ := field_unique h h' ⟨_, _, rfl, .inr rfl⟩ ⟨_, _, rfl, .inr rfl⟩ he
      simp only [List.cons.injEq, true_and] at he'
      exact ⟨rfl, rfl, he'⟩
    | cons h' _ =>
      rw [List.append_assoc, List.cons_append] at he
      obtain ⟨rfl, rfl, rfl, rfl, rfl, rfl, he'⟩ := field_unique h h' ⟨_, _, rfl, .inr rfl⟩ ⟨_, _, rfl, .inl rfl⟩ he
      simp at he'
  | _, _, .cons h h2, y, fs', r, s, hu, he => by
    rw [List.append_assoc, List.cons_append] at he
    cases hu with
    | nil hg' => exact absurd he.symm (gap_not_field h hg')
    | last h' =>
      obtain ⟨rfl, rfl, rfl, rfl, rfl, rfl, he'⟩ := field_unique h h' ⟨_, _, rfl, .inl rfl⟩ ⟨_, _, rfl, .inr rfl⟩ he
      simp at he'
    | cons h' h2' =>
      rw [List.append_assoc, List.cons_append] at he
      obtain ⟨rfl, rfl, rfl, rfl, rfl, rfl, he'⟩ := field_unique h h' ⟨_, _, rfl, .inl rfl⟩ ⟨_, _, rfl, .inl rfl⟩ he
      simp only [List.cons.injEq, true_and] at he'
      obtain ⟨rfl, rfl, rfl⟩ := fields_unique h2 h2' he'
      exact ⟨rfl, rfl, rfl⟩

theorem field_unique {e : Env} : {x n p : Text} → {b : Bool} → {t : Ty} → {tag : Text} → FieldText e x n p b t tag →
    ∀ {y n' p' b' t' tag' r s}, FieldText e y n' p' b' t' tag' → Shut r → Shut s → x ++ r = y ++ s →
    x = y ∧ n = n' ∧ p = p' ∧ b = b' ∧ t = t' ∧ tag = tag' ∧ r = s
  | _, _, _, _, _, _, .named h1 h2 h3 h4 h5 h6 h7, y, n', p', b', t', tag', r, s, hu, hr, hs, he => by
    simp only [List.append_assoc] at he
    cases hu with
    | named k1 k2 k3 k4 k5 k6 k7 =>
      simp only [List.append_assoc] at he
      obtain ⟨rfl, he'⟩ := gap_span h1 k1 (name_noSpace h2 _) (name_noSpace k2 _) he
      have hsp : ∀ {g r : Text}, Gap g → g ≠ [] → NoHead wordChar (g ++ r) := by
        intro g r hg hne
        obtain ⟨cs, hcs⟩ := gap_head (r := r) hg hne
        rw [hcs]
        exact noHead_cons (by decide)
      obtain ⟨rfl, he''⟩ := span_eq (ident_word h2.1) (ident_word k2.1) (hsp h3 h4) (hsp k3 k4) he'
      obtain ⟨rfl, he'''⟩ := gap_span h3 k3 (type_noSpace h5 _) (type_noSpace k5 _) he''
      obtain ⟨rfl, rfl, he''''⟩ := type_unique h5 k5 (tag_stop h6 h7 hr) (tag_stop k6 k7 hs) he'''
      obtain ⟨rfl, rfl, rfl, rfl⟩ := tag_unique h6 h7 k6 k7 hr hs he''''
      exact ⟨rfl, rfl, rfl, rfl, rfl, rfl, rfl⟩
    | embedded k1 k2 k3 k4 k5 =>
      simp only [List.append_assoc] at he
      obtain ⟨rfl, he'⟩ := gap_span h1 k1 (name_noSpace h2 _) (type_noSpace k2 _) he
      exact absurd he' (named_not_embedded h2 h3 h4 h5 k2 k3 k4 k5 hs)
  | _, _, _, _, _, _, .embedded h1 h2 h3 h4 h5, y, n', p', b', t', tag', r, s, hu, hr, hs, he => by
    simp only [List.append_assoc] at he
    cases hu with
    | named k1 k2 k3 k4 k5 k6 k7 =>
      simp only [List.append_assoc] at he
      obtain ⟨rfl, he'⟩ := gap_span h1 k1 (type_noSpace h2 _) (name_noSpace k2 _) he
      exact absurd he'.symm (named_not_embedded k2 k3 k4 k5 h2 h3 h4 h5 hr)
    | embedded k1 k2 k3 k4 k5 =>
      simp only [List.append_assoc] at he
      obtain ⟨rfl, he'⟩ := gap_span h1 k1 (type_noSpace h2 _) (type_noSpace k2 _) he
      obtain ⟨rfl, rfl, he''⟩ := type_unique h2 k2 (tag_stop h4 h5 hr) (tag_stop k4 k5 hs) he'
      obtain ⟨rfl, rfl, rfl, rfl⟩ := tag_unique h4 h5 k4 k5 hr hs he''
      rw [h3] at k3
      simp only [Option.some.injEq] at k3
      subst k3
      exact ⟨rfl, rfl, rfl, rfl, rfl, rfl, rfl⟩

end

end Verif.GoType
