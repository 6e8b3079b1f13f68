import Verif.Lemmas.LexRun

/-!
The tokens of texts in quotes.
-/

set_option linter.unusedSimpArgs false
set_option linter.unusedSectionVars false

namespace Verif.Parser

open Verif.Token Verif.Lexer Verif.Ast Verif.PlainTree

variable {b ty : TokType} {text r w t : List Char} {l : Lexer} {c x : Char} {cx : Ctx} {d : Bool} {s : Lexer} {p j : Nat}
variable {st : List CtxType} {ks : List TokType}

/-- A context, by its stack. -/
abbrev ctxOf (st : List CtxType) : Ctx := ⟨st, false, false⟩

/-- The context between quotes. -/
def quoteCtx (d : Bool) (st : List CtxType) : Ctx := ctxOf ((if d then .doubleQuote else .singleQuote) :: st)

/-- The quote. -/
def quoteChar (d : Bool) : Char := if d then '"' else '\''

theorem emits_spaceQ : Emits (quoteCtx d st) b (' ' :: r) .space [' '] (quoteCtx d st) r := by
  intro pos
  cases d <;> exact ⟨_, _, rfl, rfl, rfl⟩

theorem emits_open : Emits newCtx b (quoteChar d :: r) (quoteTok d) [quoteChar d] (quoteCtx d []) r := by
  intro pos
  cases d <;> exact ⟨_, _, rfl, rfl, rfl⟩

theorem emits_close (hn : r.head? ≠ some (quoteChar d)) :
    Emits (quoteCtx d st) b (quoteChar d :: r) (quoteTok d) [quoteChar d] (ctxOf st) r := by
  intro pos
  cases d with
  | true => exact ⟨_, _, rfl, rfl, rfl⟩
  | false =>
    have : noQuoteAhead ⟨r, quoteCtx false st, pos, b, none⟩ = true := by
      cases r with
      | nil => rfl
      | cons c r => simpa [noQuoteAhead, lookahead, raNext, quoteChar] using hn
    refine ⟨⟨.singleQuote, pos, pos, ['\'']⟩, pos, ?_, rfl, rfl⟩
    show singleQuoteMatching ⟨r, quoteCtx false st, pos, b, none⟩ (some '\'') = _
    unfold singleQuoteMatching
    rw [if_pos rfl, if_pos (by rw [this]; rfl)]
    rfl

/-- A character between quotes, not a space. -/
def Inner (d : Bool) (c : Char) : Prop := 0x20 ≤ c.toNat ∧ c ∉ signs (quoteKind d) ∧ c ≠ ' '

/-- The character `c` before `r` belongs to a string; the context changes. -/
def PassTo (cx : Ctx) (b : TokType) (c : Char) (r : List Char) (cx' : Ctx) : Prop :=
  ∀ pos, matchSpecialToken ⟨r, cx, pos, b, none⟩ (some c) = (none, ⟨r, cx', pos, b, none⟩)

/-- The characters `w` before `text` belong to a string; the context changes. -/
inductive RunTo (text : List Char) : Ctx → List Char → Ctx → Prop
  | nil {cx : Ctx} : RunTo text cx [] cx
  | cons {cx cx1 cx' : Ctx} {c : Char} {w : List Char} : (∀ b, PassTo cx b c (w ++ text) cx1) → RunTo text cx1 w cx' →
      RunTo text cx (c :: w) cx'

theorem loop_run {cx' cx2 : Ctx} {o : List Char} : ∀ {cx : Ctx} {w : List Char}, RunTo text cx w cx' → ∀ (f : Nat) (pos st : Pos) (acc : List Char),
    Emits cx' .string text ty o cx2 r → w.length + 1 ≤ f →
    ∃ t l', emitLoop f ⟨w ++ text, cx, pos, .string, none⟩ (some (st, acc)) = some (t, l') ∧ t.type = .string ∧ t.origin = acc ++ w ∧
      Lx cx' .string text l' := by
  intro cx w h
  induction h with
  | @nil cx =>
    intro f pos st acc he hf
    exact loop_string [] f pos st acc trivial he hf
  | @cons cx cx1 cx' c w h1 h2 ih =>
    intro f pos st acc he hf
    obtain ⟨f, rfl⟩ : ∃ g, f = g + 1 := ⟨f - 1, by omega⟩
    obtain ⟨t, l', g1, g2, g3, g4⟩ := ih f { pos with col := pos.col + 1 } st (acc ++ [c]) he (by simp at hf; omega)
    refine ⟨t, l', ?_, g2, by simpa using g3, g4⟩
    rw [← g1]
    conv_lhs => unfold emitLoop
    simp only [List.cons_append, raNext, h1 .string { pos with col := pos.col + 1 }]

theorem lex_run {cx cx' cx2 : Ctx} {o : List Char} (h : Lx cx b (c :: w ++ text) l) (h1 : RunTo text cx (c :: w) cx')
    (he : Emits cx' .string text ty o cx2 r) :
    (lexNext l).1.type = .string ∧ (lexNext l).1.origin = c :: w ∧ Lx cx' .string text (lexNext l).2 := by
  obtain ⟨l0, h0, hl⟩ := h
  rw [hl]
  obtain ⟨rest, ctx, pos, behind, prepared⟩ := l0
  obtain ⟨e1, e2, e3, e4⟩ := h0
  simp only at e1 e2 e3 e4
  subst e1 e2 e3 e4
  cases h1 with
  | @cons _ cx1 _ _ _ h1 h2 =>
  obtain ⟨t, l', g1, g2, g3, g4⟩ := loop_run h2 (w ++ text).length.succ { pos with col := pos.col + 1 }
    { pos with col := pos.col + 1 } [c] he (by simp)
  have e1 : lexNext ⟨c :: w ++ text, ctx, pos, behind, none⟩ = (t, l') := by
    refine lexNext_loop rfl ?_
    rw [← g1]
    conv_lhs => unfold emitLoop
    simp only [List.cons_append, raNext, h1 behind { pos with col := pos.col + 1 }]
    rfl
  rw [e1]
  exact ⟨g2, by simpa using g3, g4⟩

theorem FrontIn.runTo {cx cx' cx2 : Ctx} {o : List Char} (h : FrontIn s ks .normal cx p b (c :: w ++ text)) (h1 : RunTo text cx (c :: w) cx')
    (he : Emits cx' .string text ty o cx2 r) :
    (toks s p).type = .string ∧ (toks s p).origin = c :: w ∧ FrontIn s ks .normal cx' (p + 1) .string text := by
  have h1 := lex_run h.lx h1 he
  rw [← toks_pos h.pos] at h1
  refine ⟨h1.1, h1.2.1, h.nextly h1.2.2 (h.flat.step h.pos ?_ fun e => ?_) (by simp [h1.1])⟩
  · show NoBracket (toks s p)
    simp [NoBracket, h1.1]
  · have e' : (toks s p).type = .eof := e
    rw [h1.1] at e'
    cases e'

theorem passes_inner (hc : Inner d c) : PassTo (quoteCtx d st) b c r (quoteCtx d st) := by
  intro pos
  obtain ⟨h1, h2, h3⟩ := hc
  have n1 : c ≠ '\uFEFF' := by rintro rfl; cases d <;> simp [signs, quoteKind] at h2
  have n2 : c ≠ '\r' := by rintro rfl; simp at h1
  have n3 : c ≠ '\n' := by rintro rfl; simp at h1
  have n4 : c ≠ '\t' := by rintro rfl; simp at h1
  have hb : ∀ l : Lexer, baseMatching l (some c) = (none, l) := by
    intro l
    unfold baseMatching
    split <;> simp_all
  cases d with
  | true =>
    have n5 : c ≠ '"' := by rintro rfl; simp [signs, quoteKind] at h2
    have n6 : c ≠ '\\' := by rintro rfl; simp [signs, quoteKind] at h2
    show doubleQuoteMatching _ _ = _
    unfold doubleQuoteMatching
    split <;> simp_all [setEscaped, quoteCtx]
  | false =>
    have n5 : c ≠ '\'' := by rintro rfl; simp [signs, quoteKind] at h2
    show singleQuoteMatching _ _ = _
    unfold singleQuoteMatching
    rw [if_neg (by simp [n5]), hb]
    rfl

/-- A text between quotes without a space of its own. -/
inductive Strip (d : Bool) : List Char → Prop
  | nil : Strip d []
  | char {c : Char} {t : List Char} : Inner d c → Strip d t → Strip d (c :: t)
  | escape {e t : List Char} : d = true → Escape e → Strip d t → Strip d ('\\' :: (e ++ t))
  | twice {t : List Char} : d = false → Strip d t → Strip d ('\'' :: '\'' :: t)

/-- The context behind a backslash or the first one of two quotes. -/
def escapeCtx (d : Bool) (st : List CtxType) : Ctx := { quoteCtx d st with escaped := true }

theorem hex_inner (h : c ∈ "0123456789abcdefABCDEF".toList) : Inner true c := by
  have key : ∀ c ∈ "0123456789abcdefABCDEF".toList, 0x20 ≤ c.toNat ∧ c ∉ signs (quoteKind true) ∧ c ≠ ' ' := by decide
  exact key c h

/-- The backslash. -/
theorem pass_slash : PassTo (quoteCtx true st) b '\\' r (escapeCtx true st) := fun _ => rfl

/-- What follows the backslash. -/
theorem pass_letter (h : c ∈ "0atnvfre \"/\\N_LPxuU".toList) : PassTo (escapeCtx true st) b c r (quoteCtx true st) := by
  intro pos
  simp only [String.toList, List.mem_cons, List.not_mem_nil, or_false] at h
  have key : ∀ c ∈ "0atnvfre \"/\\N_LPxuU".toList, c ∈ ['0','a','t','n','v','f','r','e',' ','"','/','\\','N','_','L','P','x','u','U'] := by
    decide
  have h := key c h
  simp only [List.mem_cons, List.not_mem_nil, or_false] at h
  rcases h with rfl | rfl | rfl | rfl | rfl | rfl | rfl | rfl | rfl | rfl | rfl | rfl | rfl | rfl | rfl | rfl | rfl | rfl | rfl <;> rfl

theorem pass_quote1 : PassTo (quoteCtx false st) b '\'' ('\'' :: r) (escapeCtx false st) := fun _ => rfl

theorem pass_quote2 : PassTo (escapeCtx false st) b '\'' r (quoteCtx false st) := fun _ => rfl

theorem run_inner (hs : RunTo text (quoteCtx d st) w (quoteCtx d st)) : ∀ {e : List Char}, (∀ c ∈ e, Inner d c) →
    RunTo text (quoteCtx d st) (e ++ w) (quoteCtx d st)
  | [], _ => hs
  | c :: _, h => .cons (fun _ => passes_inner (h c (by simp))) (run_inner hs fun x hx => h x (by simp [hx]))

theorem run_strip (h : Strip d w) : RunTo text (quoteCtx d st) w (quoteCtx d st) := by
  induction h with
  | nil => exact .nil
  | char h1 _ ih => exact .cons (fun _ => passes_inner h1) ih
  | escape hd he _ ih =>
    subst hd
    refine .cons (fun _ => pass_slash) ?_
    cases he with
    | letter hc =>
      refine .cons (fun _ => pass_letter ?_) ih
      have key : ∀ c ∈ "0atnvfre \"/\\N_LP".toList, c ∈ "0atnvfre \"/\\N_LPxuU".toList := by decide
      exact key _ hc
    | @number l ds hl hd =>
      refine .cons (fun _ => pass_letter ?_) (run_inner ih fun c hc => hex_inner (hd c hc))
      simp only [List.mem_cons, Prod.mk.injEq, List.not_mem_nil, or_false] at hl
      rcases hl with ⟨rfl, -⟩ | ⟨rfl, -⟩ | ⟨rfl, -⟩ <;> decide
  | twice hd _ ih =>
    subst hd
    exact .cons (fun _ => pass_quote1) (.cons (fun _ => pass_quote2) ih)

theorem within_split {t : List Char} (h : Within (quoteKind d) t) :
    ∃ w u, t = w ++ u ∧ Strip d w ∧ (u = [] ∨ ∃ u', u = ' ' :: u' ∧ Within (quoteKind d) u') := by
  induction h with
  | nil => exact ⟨[], [], rfl, .nil, .inl rfl⟩
  | @char c t h1 h2 h3 ih =>
    by_cases hc : c = ' '
    · exact ⟨[], c :: t, rfl, .nil, .inr ⟨t, by rw [hc], h3⟩⟩
    · obtain ⟨w, u, rfl, g2, g3⟩ := ih
      exact ⟨c :: w, u, rfl, .char ⟨h1, h2, hc⟩ g2, g3⟩
  | @escape e t hd he h3 ih =>
    obtain ⟨w, u, rfl, g2, g3⟩ := ih
    refine ⟨'\\' :: (e ++ w), u, by simp, .escape ?_ he g2, g3⟩
    cases d
    · cases hd
    · rfl
  | @twice t hd h3 ih =>
    obtain ⟨w, u, rfl, g2, g3⟩ := ih
    refine ⟨'\'' :: '\'' :: w, u, by simp, .twice ?_ g2, g3⟩
    cases d
    · rfl
    · cases hd

theorem plainly_quote : Plainly (quoteTok d) := by cases d <;> simp [Plainly, quoteTok]

theorem inner_json (h : Inner d c) : YamlChar.isJSONChar c = true := by
  obtain ⟨h1, h2, h3⟩ := h
  have := c.valid
  have h5 : c.toNat ≤ 0x10FFFF := by
    rcases this with h | h
    · have : c.toNat < 0xd800 := h
      omega
    · have := h.2
      have : c.toNat < 0x110000 := this
      omega
  simp [YamlChar.isJSONChar, h1, h5]

theorem escaped_rest {e t : List Char} (h : Escape e) : YamlChar.escapedRest (e ++ t) = some t := by
  cases h with
  | @letter c hc =>
    have key : ∀ c ∈ "0atnvfre \"/\\N_LP".toList, c ∈ ['0','a','t','n','v','f','r','e',' ','"','/','\\','N','_','L','P'] := by
      decide
    have h := key c hc
    simp only [List.mem_cons, List.not_mem_nil, or_false] at h
    rcases h with rfl | rfl | rfl | rfl | rfl | rfl | rfl | rfl | rfl | rfl | rfl | rfl | rfl | rfl | rfl | rfl <;> rfl
  | @number l ds hl hd =>
    have hx : YamlChar.areHexDigits ds = true := by
      refine List.all_eq_true.2 fun c hc => ?_
      have key : ∀ c ∈ "0123456789abcdefABCDEF".toList, YamlChar.isHexDigit c = true := by decide
      exact key c (hd c hc)
    simp only [List.mem_cons, Prod.mk.injEq, List.not_mem_nil, or_false] at hl
    rcases hl with ⟨rfl, hl⟩ | ⟨rfl, hl⟩ | ⟨rfl, hl⟩ <;>
      simp [YamlChar.escapedRest, ← hl, hx]

theorem strip_set {w : List Char} (h : Strip d w) : YamlChar.conformsCharSet w (quoteSet d) = true := by
  induction h with
  | nil => cases d <;> simp [quoteSet, YamlChar.conformsCharSet, YamlChar.isSingleQuotedString, YamlChar.isDoubleQuotedString]
  | @char c w hi _ ih =>
    have hj := inner_json hi
    obtain ⟨h1, h2, h3⟩ := hi
    cases d with
    | true =>
      have n5 : c ≠ '"' := by rintro rfl; simp [signs, quoteKind] at h2
      have n6 : c ≠ '\\' := by rintro rfl; simp [signs, quoteKind] at h2
      show YamlChar.isDoubleQuotedString (c :: w) = true
      rw [YamlChar.isDoubleQuotedString]
      simp only [n5, n6, if_false, hj, Bool.true_and]
      exact ih
    | false =>
      have n5 : c ≠ '\'' := by rintro rfl; simp [signs, quoteKind] at h2
      show YamlChar.isSingleQuotedString (c :: w) = true
      unfold YamlChar.isSingleQuotedString
      split
      · rfl
      · simp_all
      · simp_all
      · rename_i heq
        injection heq with e1 e2
        subst e1 e2
        rw [hj]
        exact ih
  | @escape e t hd he _ ih =>
    subst hd
    show YamlChar.isDoubleQuotedString _ = true
    rw [YamlChar.isDoubleQuotedString]
    simp only [if_true]
    split
    · rename_i h; rw [escaped_rest he] at h; cases h
    · rename_i h
      rw [escaped_rest he] at h
      injection h with h
      subst h
      exact ih
  | @twice t hd _ ih =>
    subst hd
    show YamlChar.isSingleQuotedString _ = true
    rw [YamlChar.isSingleQuotedString]
    exact ih

/-- A line of the text between quotes. -/
theorem FrontIn.line {x : List Char} (hx : ∀ b, ∃ ty o cx' r', Emits (quoteCtx d st) b x ty o cx' r') : ∀ (n : Nat) {t : List Char} {p : Nat} {b : TokType},
    t.length ≤ n → Within (quoteKind d) t → FrontIn s ks .normal (quoteCtx d st) p b (t ++ x) →
    ∃ q b', QuoteRun (toks s) (quoteSet d) p t q ∧ FrontIn s ks .normal (quoteCtx d st) q b' x ∧
      (∀ c u, t = c :: u → c ≠ ' ' → (toks s p).type = .string) := by
  intro n
  induction n with
  | zero =>
    intro t p b hn hv h
    obtain rfl : t = [] := List.length_eq_zero_iff.1 (by omega)
    exact ⟨p, b, .stop, h, by simp⟩
  | succ n ih =>
    intro t p b hn hv h
    obtain ⟨w, u, rfl, hin, hu⟩ := within_split hv
    cases w with
    | nil =>
      rcases hu with rfl | ⟨u, rfl, hu⟩
      · exact ⟨p, b, .stop, h, by simp⟩
      · obtain ⟨h1, h2, h3⟩ := h.token (emits_spaceQ (r := u ++ x)) (by simp [Plainly]) (by simp)
        obtain ⟨q, b', g1, g2, -⟩ := ih (by simp at hn; omega) hu h3
        refine ⟨q, b', ?_, g2, by simp +contextual⟩
        have := QuoteRun.step (.inr h1) (by simp [isQuotedText, isWhite_of_space h1]) h3.calmly g1
        rw [h2] at this
        exact this
    | cons c w =>
      have go : ∀ {ty o cx' r'}, Emits (quoteCtx d st) .string (u ++ x) ty o cx' r' → Within (quoteKind d) u →
          ∃ q b', QuoteRun (toks s) (quoteSet d) p (c :: w ++ u) q ∧ FrontIn s ks .normal (quoteCtx d st) q b' x ∧
            (∀ c' u', c :: w ++ u = c' :: u' → c' ≠ ' ' → (toks s p).type = .string) := by
        intro ty o cx' r' he hu
        obtain ⟨h1, h2, h3⟩ := FrontIn.runTo (w := w) (text := u ++ x) (by simpa using h) (run_strip hin) he
        obtain ⟨q, b', g1, g2, -⟩ := ih (by simp at hn; omega) hu h3
        refine ⟨q, b', ?_, g2, fun _ _ _ _ => h1⟩
        have := QuoteRun.step (cst := quoteSet d) (.inl h1) (by simp [isQuotedText, stringIn, h1, h2, strip_set hin]) h3.calmly g1
        rw [h2] at this
        exact this
      rcases hu with rfl | ⟨u, rfl, hu⟩
      · obtain ⟨_, _, _, _, he⟩ := hx .string
        exact go he .nil
      · exact go (emits_spaceQ (r := u ++ x)) (.char (by decide) (by cases d <;> simp [signs, quoteKind]) hu)

/-- The text between quotes. -/
theorem FrontIn.run (hr : r.head? ≠ some (quoteChar d)) (hv : Within (quoteKind d) t) (h : FrontIn s ks .normal (quoteCtx d st) p b (t ++ quoteChar d :: r)) :
    ∃ q, QuoteRun (toks s) (quoteSet d) p t q ∧ (toks s q).type = quoteTok d ∧ FrontIn s ks .normal (ctxOf st) (q + 1) (quoteTok d) r := by
  obtain ⟨q, b', h1, h2, -⟩ := FrontIn.line (fun b => ⟨_, _, _, _, emits_close (b := b) hr⟩) t.length (Nat.le_refl _) hv h
  obtain ⟨h3, -, h4⟩ := h2.token (emits_close hr) plainly_quote (by cases d <;> simp [quoteTok])
  exact ⟨q, h1, h3, h4⟩

/-- The text with its quotes. -/
theorem FrontIn.quoted (h : FrontIn s ks .normal (ctxOf st) p b (quoteChar d :: (t ++ quoteChar d :: r)))
    (he : Emits (ctxOf st) b (quoteChar d :: (t ++ quoteChar d :: r)) (quoteTok d) [quoteChar d] (quoteCtx d st) (t ++ quoteChar d :: r))
    (hv : Within (quoteKind d) t) (hr : r.head? ≠ some (quoteChar d)) :
    ∃ q, Quoted (toks s) d p t q ∧ FrontIn s ks .normal (ctxOf st) (q + 1) (quoteTok d) r := by
  obtain ⟨h1, -, hq⟩ := h.token he plainly_quote (by cases d <;> simp [quoteTok])
  obtain ⟨q, g1, g2, g3⟩ := FrontIn.run hr hv hq
  exact ⟨q, ⟨h.pos, h1, g1, g2, hq.calmly, g3.calmly⟩, g3⟩

theorem Front.quoted (h : Front s newCtx p b (quoteChar d :: (t ++ quoteChar d :: r))) (hv : Within (quoteKind d) t)
    (hr : r.head? ≠ some (quoteChar d)) : ∃ q, Quoted (toks s) d p t q ∧ Front s newCtx (q + 1) (quoteTok d) r := by
  obtain ⟨q, g1, g2⟩ := FrontIn.quoted (st := []) h.toFrontIn emits_open hv hr
  exact ⟨q, g1, ⟨g2⟩⟩

end Verif.Parser
