import Verif.Lemmas.GoText

/-!
The expressions of Go: a text has one reading.
-/

namespace Verif.GoText

open Verif.GenText

theorem ident_char {c : Char} (h : c.isAlphanum = true ∨ c = '_') :
    Plain c ∧ c ≠ '.' ∧ c ≠ '*' ∧ c ≠ '(' ∧ c ≠ ')' ∧ c ≠ '[' ∧ c ≠ ']' ∧ c ≠ '"' ∧ c ≠ '`' := by
  have key : ∀ d : Char, d.isAlphanum = false → d ≠ '_' → c ≠ d := by
    rintro d h1 h2 rfl
    rcases h with h | h
    · rw [h1] at h; cases h
    · exact h2 h
  refine ⟨?_, key _ (by decide) (by decide), key _ (by decide) (by decide), key _ (by decide) (by decide),
    key _ (by decide) (by decide), key _ (by decide) (by decide), key _ (by decide) (by decide),
    key _ (by decide) (by decide), key _ (by decide) (by decide)⟩
  simp only [Plain, List.mem_cons, List.not_mem_nil, or_false, not_or]
  exact ⟨key _ (by decide) (by decide), key _ (by decide) (by decide), key _ (by decide) (by decide),
    key _ (by decide) (by decide), key _ (by decide) (by decide), key _ (by decide) (by decide),
    key _ (by decide) (by decide), key _ (by decide) (by decide)⟩

theorem Ident.neutral {x : List Char} (h : Ident x) : Neutral x :=
  neutral_plain fun c hc => (ident_char (h.2 c hc)).1

/-- No literals in it. -/
def Bare (x : List Char) : Prop := '"' ∉ x ∧ '`' ∉ x

theorem Ident.bare {x : List Char} (h : Ident x) : Bare x :=
  ⟨fun hc => (ident_char (h.2 _ hc)).2.2.2.2.2.2.2.1 rfl, fun hc => (ident_char (h.2 _ hc)).2.2.2.2.2.2.2.2 rfl⟩

theorem Neutral.wrap {o c : Char} (h : closing o = some c) {x : List Char} (hx : Neutral x) : Neutral (o :: (x ++ [c])) := by
  intro st
  rw [scan_cons, next_open h, scan_append, hx, scan_cons, next_close h, scan_nil]

mutual
theorem primary_bare : ∀ {x : List Char} {e : Expr}, Primary x e → Neutral x ∧ Bare x
  | _, _, .name h => ⟨h.neutral, h.bare⟩
  | _, _, .paren h => by
    obtain ⟨h1, h2, h3⟩ := unary_bare h
    exact ⟨h1.wrap rfl, by simp [h2], by simp [h3]⟩
  | _, _, .sel h hf => by
    obtain ⟨h1, h2, h3⟩ := primary_bare h
    have hb := hf.bare
    exact ⟨h1.append hf.neutral.dot, by simp [h2, hb.1], by simp [h3, hb.2]⟩
  | _, _, .index h hi => by
    obtain ⟨h1, h2, h3⟩ := primary_bare h
    have hb := hi.bare
    exact ⟨h1.append (hi.neutral.wrap rfl), by simp [h2, hb.1], by simp [h3, hb.2]⟩
  | _, _, .call h ha hq hr => by
    obtain ⟨h1, h2, h3⟩ := primary_bare h
    exact ⟨h1.append (ha.neutral.wrap rfl), by simp [h2, hq], by simp [h3, hr]⟩

theorem unary_bare : ∀ {x : List Char} {e : Expr}, Unary x e → Neutral x ∧ Bare x
  | _, _, .primary h => primary_bare h
  | _, _, .deref h => by
    obtain ⟨h1, h2, h3⟩ := unary_bare h
    exact ⟨h1.star, by simp [h2], by simp [h3]⟩
end

theorem primary_head : ∀ {x : List Char} {e : Expr}, Primary x e → ∃ c s, x = c :: s ∧ c ≠ '*'
  | _, _, .name h => by
    obtain ⟨⟨c, s, rfl, _⟩, h2⟩ := h
    exact ⟨c, s, rfl, (ident_char (h2 c (by simp))).2.2.1⟩
  | _, _, .paren h => ⟨'(', _, rfl, by decide⟩
  | _, _, .sel h _ => by obtain ⟨c, s, rfl, hc⟩ := primary_head h; exact ⟨c, _, rfl, hc⟩
  | _, _, .index h _ => by obtain ⟨c, s, rfl, hc⟩ := primary_head h; exact ⟨c, _, rfl, hc⟩
  | _, _, .call h _ _ _ => by obtain ⟨c, s, rfl, hc⟩ := primary_head h; exact ⟨c, _, rfl, hc⟩

/-- A star takes all that follows. -/
theorem unary_star {x : List Char} {e : Expr} (h : Unary ('*' :: x) e) : ∃ e', e = .deref e' ∧ Unary x e' := by
  cases h with
  | primary h =>
    obtain ⟨c, s, hx, hc⟩ := primary_head h
    cases hx
    exact absurd rfl hc
  | deref h => exact ⟨_, rfl, h⟩

theorem bare_scan {x : List Char} (h : Bare x) (st : List Char) :
    (∃ st', scan (.code st) x = .code st') ∨ scan (.code st) x = .bad := by
  induction x generalizing st with
  | nil => exact .inl ⟨st, rfl⟩
  | cons c x ih =>
    obtain ⟨h1, h2⟩ := h
    simp only [List.mem_cons, not_or] at h1 h2
    have hb : Bare x := ⟨h1.2, h2.2⟩
    rw [scan_cons]
    simp only [next, Ne.symm h1.1, Ne.symm h2.1, if_false]
    split
    · exact ih hb _
    · split
      · unfold shut
        split
        · split
          · exact ih hb _
          · exact .inr (scan_bad _)
        · exact .inr (scan_bad _)
      · exact ih hb _

/-- An opening bracket before a closed rest is not inside of a closed text. -/
theorem not_opened {a z b : List Char} (e : a = z ++ '(' :: b) (ha : Neutral a) (hb : Neutral b) (hz : Bare z) : False := by
  have h := ha []
  rw [e, scan_append] at h
  rcases bare_scan hz [] with ⟨st, hs⟩ | hs
  · rw [hs, scan_cons, next_open (c := ')') rfl, hb] at h
    cases h
  · rw [hs, scan_bad] at h
    cases h

theorem split_last {c : Char} {x y f g : List Char} (e : x ++ c :: f = y ++ c :: g) (hf : c ∉ f) (hg : c ∉ g) :
    x = y ∧ f = g := by
  rcases List.append_eq_append_iff.1 e with ⟨l, rfl, h⟩ | ⟨l, rfl, h⟩
  · cases l with
    | nil => simp_all
    | cons d l => cases h; simp at hf
  · cases l with
    | nil => simp_all
    | cons d l => cases h; simp at hg

theorem split_open {x y a b : List Char} (e : x ++ '(' :: a = y ++ '(' :: b) (ha : Neutral a) (hb : Neutral b)
    (ha' : Bare a) (hb' : Bare b) : x = y ∧ a = b := by
  rcases List.append_eq_append_iff.1 e with ⟨l, rfl, h⟩ | ⟨l, rfl, h⟩
  · cases l with
    | nil => simp_all
    | cons d l =>
      cases h
      exact (not_opened rfl ha hb ⟨fun h => ha'.1 (by simp [h]), fun h => ha'.2 (by simp [h])⟩).elim
  · cases l with
    | nil => simp_all
    | cons d l =>
      cases h
      exact (not_opened rfl hb ha ⟨fun h => hb'.1 (by simp [h]), fun h => hb'.2 (by simp [h])⟩).elim

theorem last_eq {x y : List Char} {c d : Char} (e : x ++ [c] = y ++ [d]) : x = y ∧ c = d := by
  have := List.append_inj' e rfl
  exact ⟨this.1, by simpa using this.2⟩

/-- A name ends with a character of names. -/
theorem Ident.last {f : List Char} (h : Ident f) : ∃ s c, f = s ++ [c] ∧ c ≠ ')' ∧ c ≠ ']' := by
  obtain ⟨⟨c, s, rfl, _⟩, h2⟩ := h
  refine ⟨_, _, (List.dropLast_concat_getLast (List.cons_ne_nil c s)).symm, ?_⟩
  have := ident_char (h2 _ (List.getLast_mem (List.cons_ne_nil c s)))
  exact ⟨this.2.2.2.2.1, this.2.2.2.2.2.2.1⟩

theorem Ident.notMem {f : List Char} (h : Ident f) : '.' ∉ f ∧ '(' ∉ f ∧ '[' ∉ f :=
  ⟨fun hc => (ident_char (h.2 _ hc)).2.1 rfl, fun hc => (ident_char (h.2 _ hc)).2.2.2.1 rfl,
    fun hc => (ident_char (h.2 _ hc)).2.2.2.2.2.1 rfl⟩

/-- How a primary expression ends. -/
theorem primary_end : ∀ {x : List Char} {e : Expr}, Primary x e →
    ∃ s c, x = s ++ [c] ∧
      ((c = ')' ∧ ((∃ y, x = '(' :: (y ++ [')']) ∧ Unary y e) ∨
          ∃ y e' a, x = y ++ '(' :: (a ++ [')']) ∧ Primary y e' ∧ e = .call e' a ∧ Neutral a ∧ Bare a)) ∨
        (c = ']' ∧ ∃ y e' i, x = y ++ '[' :: (i ++ [']']) ∧ Primary y e' ∧ e = .index e' i ∧ Ident i) ∨
        (c ≠ ')' ∧ c ≠ ']' ∧ ((Ident x ∧ e = .name x) ∨
          ∃ y e' f, x = y ++ '.' :: f ∧ Primary y e' ∧ e = .sel e' f ∧ Ident f)))
  | _, _, .name h => by
    obtain ⟨s, c, e, h1, h2⟩ := h.last
    exact ⟨s, c, e, .inr (.inr ⟨h1, h2, .inl ⟨h, rfl⟩⟩)⟩
  | _, _, @Primary.paren y e h => ⟨'(' :: y, ')', rfl, .inl ⟨rfl, .inl ⟨y, rfl, h⟩⟩⟩
  | _, _, @Primary.sel y e f h hf => by
    obtain ⟨s, c, e', h1, h2⟩ := hf.last
    exact ⟨y ++ '.' :: s, c, by simp [e'], .inr (.inr ⟨h1, h2, .inr ⟨y, e, f, rfl, h, rfl, hf⟩⟩)⟩
  | _, _, @Primary.index y e i h hi =>
    ⟨y ++ '[' :: i, ']', by simp, .inr (.inl ⟨rfl, y, e, i, rfl, h, rfl, hi⟩)⟩
  | _, _, @Primary.call y e a h ha hq hr =>
    ⟨y ++ '(' :: a, ')', by simp, .inl ⟨rfl, .inr ⟨y, e, a, rfl, h, rfl, ha.neutral, hq, hr⟩⟩⟩

theorem paren_not_call {y z a : List Char} {e e' : Expr} (hy : Unary y e) (hz : Primary z e') (ha : Neutral a)
    (h : '(' :: (y ++ [')']) = z ++ '(' :: (a ++ [')'])) : False := by
  obtain ⟨c, s, rfl, _⟩ := primary_head hz
  obtain ⟨hn, hb⟩ := unary_bare hy
  simp only [List.cons_append, List.cons.injEq] at h
  obtain ⟨rfl, h⟩ := h
  have h' : y = s ++ '(' :: a := (last_eq (c := ')') (d := ')') (by simpa using h)).1
  exact not_opened h' hn ha
    ⟨fun m => (primary_bare hz).2.1 (by simp [m]), fun m => (primary_bare hz).2.2 (by simp [m])⟩

theorem readings : ∀ (n : Nat) (x : List Char), x.length ≤ n →
    (∀ e e', Primary x e → Primary x e' → e = e') ∧ (∀ e e', Unary x e → Unary x e' → e = e') := by
  intro n
  induction n with
  | zero =>
    intro x hx
    obtain rfl : x = [] := List.length_eq_zero_iff.1 (by omega)
    have np : ∀ e, ¬ Primary [] e := fun e h => by
      obtain ⟨c, s, h, _⟩ := primary_head h
      cases h
    refine ⟨fun e e' h _ => (np e h).elim, fun e e' h _ => ?_⟩
    cases h with
    | primary h => exact (np _ h).elim
  | succ n ih =>
    intro x hx
    have hp : ∀ e e', Primary x e → Primary x e' → e = e' := by
      intro e e' h h'
      obtain ⟨s, c, e1, h⟩ := primary_end h
      obtain ⟨s', c', e2, h'⟩ := primary_end h'
      obtain ⟨rfl, rfl⟩ := last_eq (e1.symm.trans e2)
      rcases h with ⟨rfl, h⟩ | ⟨rfl, h⟩ | ⟨n1, n2, h⟩
      · rcases h' with ⟨_, h'⟩ | ⟨h', _⟩ | ⟨h', _⟩
        · rcases h with ⟨y, ey, hy⟩ | ⟨y, f, a, ey, hy, rfl, ha, hb⟩
          · rcases h' with ⟨y', ey', hy'⟩ | ⟨y', f', a', ey', hy', rfl, ha', hb'⟩
            · rw [ey] at ey'
              simp only [List.cons.injEq, true_and] at ey'
              obtain ⟨rfl, _⟩ := last_eq ey'
              have hl : y.length ≤ n := by rw [ey] at hx; simp at hx; omega
              exact (ih y hl).2 _ _ hy hy'
            · exact (paren_not_call hy hy' ha' (ey.symm.trans ey')).elim
          · rcases h' with ⟨y', ey', hy'⟩ | ⟨y', f', a', ey', hy', rfl, ha', hb'⟩
            · exact (paren_not_call hy' hy ha (ey'.symm.trans ey)).elim
            · have e3 : y ++ '(' :: a = y' ++ '(' :: a' :=
                (last_eq (c := ')') (d := ')') (by simpa using ey.symm.trans ey')).1
              obtain ⟨rfl, rfl⟩ := split_open e3 ha ha' hb hb'
              have hl : y.length ≤ n := by rw [ey] at hx; simp at hx; omega
              rw [(ih y hl).1 _ _ hy hy']
        · exact absurd h' (by decide)
        · exact absurd rfl h'
      · rcases h' with ⟨h', _⟩ | ⟨_, h'⟩ | ⟨_, h', _⟩
        · exact absurd h' (by decide)
        · obtain ⟨y, f, i, ey, hy, rfl, hi⟩ := h
          obtain ⟨y', f', i', ey', hy', rfl, hi'⟩ := h'
          have e3 : y ++ '[' :: i = y' ++ '[' :: i' :=
            (last_eq (c := ']') (d := ']') (by simpa using ey.symm.trans ey')).1
          obtain ⟨rfl, rfl⟩ := split_last e3 hi.notMem.2.2 hi'.notMem.2.2
          have hl : y.length ≤ n := by rw [ey] at hx; simp at hx; omega
          rw [(ih y hl).1 _ _ hy hy']
        · exact absurd rfl h'
      · rcases h' with ⟨h', _⟩ | ⟨h', _⟩ | ⟨_, _, h'⟩
        · exact absurd h' n1
        · exact absurd h' n2
        · rcases h with ⟨hi, rfl⟩ | ⟨y, f, i, ey, hy, rfl, hi⟩
          · rcases h' with ⟨_, rfl⟩ | ⟨y', f', i', ey', hy', rfl, hi'⟩
            · rfl
            · exact absurd (show '.' ∈ x by rw [ey']; simp) hi.notMem.1
          · rcases h' with ⟨hi', rfl⟩ | ⟨y', f', i', ey', hy', rfl, hi'⟩
            · exact absurd (show '.' ∈ x by rw [ey]; simp) hi'.notMem.1
            · obtain ⟨rfl, rfl⟩ := split_last (ey.symm.trans ey') hi.notMem.1 hi'.notMem.1
              have hl : y.length ≤ n := by rw [ey] at hx; simp at hx; omega
              rw [(ih y hl).1 _ _ hy hy']
    refine ⟨hp, fun e e' h h' => ?_⟩
    cases h with
    | deref h =>
      obtain ⟨e2, rfl, h2⟩ := unary_star h'
      rw [(ih _ (by simpa using hx)).2 _ _ h h2]
    | primary h =>
      cases h' with
      | primary h' => exact hp _ _ h h'
      | deref h' =>
        obtain ⟨c, s, hc, hn⟩ := primary_head h
        cases hc
        exact absurd rfl hn

/-- A text is read in one way. -/
theorem unary_unique {x : List Char} {e e' : Expr} (h : Unary x e) (h' : Unary x e') : e = e' :=
  (readings x.length x (Nat.le_refl _)).2 e e' h h'

theorem denotes_unique {s x : List Char} (h : Denotes s x) : ∀ {y}, Denotes s y → x = y := by
  induction h with
  | nil => intro y h; cases h; rfl
  | char h1 h2 h3 _ ih =>
    intro y h
    cases h with
    | char _ _ _ h => rw [ih h]
    | tab h => exact absurd rfl h2
    | newline h => exact absurd rfl h2
    | quote h => exact absurd rfl h2
    | backslash h => exact absurd rfl h2
  | tab _ ih =>
    intro y h
    cases h with
    | char _ h => exact absurd rfl h
    | tab h => rw [ih h]
  | newline _ ih =>
    intro y h
    cases h with
    | char _ h => exact absurd rfl h
    | newline h => rw [ih h]
  | quote _ ih =>
    intro y h
    cases h with
    | char _ h => exact absurd rfl h
    | quote h => rw [ih h]
  | backslash _ ih =>
    intro y h
    cases h with
    | char _ h => exact absurd rfl h
    | backslash h => rw [ih h]

end Verif.GoText
