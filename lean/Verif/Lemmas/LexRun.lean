import Verif.Lemmas.ParserRunDocs
import Verif.Props.Lexer
import Verif.Spec.PlainTree

/-!
The tokens of texts: the tokenizer with a text in front, one token at a time.
-/

set_option linter.unusedSimpArgs false
set_option linter.unusedSectionVars false

namespace Verif.Parser

open Verif.Token Verif.Lexer Verif.Ast Verif.PlainTree
open Verif.Spec.Position (Before)

variable {b ty : TokType} {text r r' w o : List Char} {l s : Lexer} {c x : Char} {cx cx' : Ctx} {p j : Nat} {t : List Char}

/-- The tokenizer in the context `cx`, with `text` in front and nothing prepared. -/
structure Lx0 (cx : Ctx) (b : TokType) (text : List Char) (l : Lexer) : Prop where
  rest : l.rest = text
  ctx : l.ctx = cx
  behind : l.behind = b
  prepared : l.prepared = none

/-- The tokenizer goes on as if it were so: after a string the next token is already prepared. -/
def Lx (cx : Ctx) (b : TokType) (text : List Char) (l : Lexer) : Prop := ∃ l0, Lx0 cx b text l0 ∧ lexNext l = lexNext l0

/-- The first characters of `text` are a token of their own, of type `ty`. -/
def Emits (cx : Ctx) (b : TokType) (text : List Char) (ty : TokType) (o : List Char) (cx' : Ctx) (r' : List Char) : Prop :=
  ∀ pos, ∃ t pos', matchSpecialToken ⟨(raNext text).2, cx, pos, b, none⟩ (raNext text).1 = (some t, ⟨r', cx', pos', b, none⟩) ∧
    t.type = ty ∧ t.origin = o

/-- The character `c` before `r` belongs to a string. -/
def Passes (cx : Ctx) (b : TokType) (c : Char) (r : List Char) : Prop :=
  ∀ pos, matchSpecialToken ⟨r, cx, pos, b, none⟩ (some c) = (none, ⟨r, cx, pos, b, none⟩)

/-- The characters `w` before `text` are the rest of a string. -/
def Runs (cx : Ctx) : List Char → List Char → Prop
  | [], _ => True
  | c :: w, text => Passes cx .string c (w ++ text) ∧ Runs cx w text

theorem lexNext_loop (hp : l.prepared = none) {o : Tok × Lexer} (h : emitLoop (l.rest.length + 1) l none = some o) : lexNext l = o := by
  simp [lexNext, nextFuel, hp, emitToken, h]

theorem lex_emits (h : Lx cx b text l) (he : Emits cx b text ty o cx' r') :
    (lexNext l).1.type = ty ∧ (lexNext l).1.origin = o ∧ Lx cx' ty r' (lexNext l).2 := by
  obtain ⟨l0, h0, hl⟩ := h
  rw [hl]
  obtain ⟨rest, ctx, pos, behind, prepared⟩ := l0
  obtain ⟨h1, h2, h3, h4⟩ := h0
  simp only at h1 h2 h3 h4
  subst h1 h2 h3 h4
  obtain ⟨t, pos', g1, rfl, rfl⟩ := he { pos with col := pos.col + 1 }
  have : lexNext ⟨rest, ctx, pos, behind, none⟩ = (t, ⟨r', cx', pos', t.type, none⟩) := by
    refine lexNext_loop rfl ?_
    unfold emitLoop
    simp only [g1]
  rw [this]
  exact ⟨rfl, rfl, _, ⟨rfl, rfl, rfl, rfl⟩, rfl⟩

theorem loop_string : ∀ (w : List Char) (f : Nat) (pos st : Pos) (acc : List Char), Runs cx w text →
    Emits cx .string text ty o cx' r' → w.length + 1 ≤ f →
    ∃ t l', emitLoop f ⟨w ++ text, cx, pos, .string, none⟩ (some (st, acc)) = some (t, l') ∧ t.type = .string ∧ t.origin = acc ++ w ∧
      Lx cx .string text l'
  | [], f, pos, st, acc, _, he, hf => by
    obtain ⟨f, rfl⟩ : ∃ g, f = g + 1 := ⟨f - 1, by omega⟩
    obtain ⟨t, pos', g1, -, -⟩ := he { pos with col := pos.col + 1 }
    refine ⟨⟨.string, st, ⟨pos.row, pos.col + 1 - 1⟩, acc⟩, ⟨r', cx', pos', .string, some t⟩, ?_, rfl, by simp,
      ⟨text, cx, pos, .string, none⟩, ⟨rfl, rfl, rfl, rfl⟩, ?_⟩
    · unfold emitLoop
      simp only [List.nil_append, g1]
    · have e1 : lexNext ⟨r', cx', pos', .string, some t⟩ = (t, ⟨r', cx', pos', t.type, none⟩) := by
        simp [lexNext, nextFuel]
      rw [e1]
      refine (lexNext_loop rfl ?_).symm
      unfold emitLoop
      simp only [g1]
  | c :: w, f, pos, st, acc, hw, he, hf => by
    obtain ⟨f, rfl⟩ : ∃ g, f = g + 1 := ⟨f - 1, by omega⟩
    obtain ⟨t, l', h1, h2, h3, h4⟩ := loop_string w f { pos with col := pos.col + 1 } st (acc ++ [c]) hw.2 he
      (by simp at hf; omega)
    refine ⟨t, l', ?_, h2, by simpa using h3, h4⟩
    rw [← h1]
    conv_lhs => unfold emitLoop
    simp only [List.cons_append, raNext, hw.1 { pos with col := pos.col + 1 }]

theorem lex_string (h : Lx cx b (c :: w ++ text) l) (h1 : Passes cx b c (w ++ text)) (h2 : Runs cx w text)
    (he : Emits cx .string text ty o cx' r') :
    (lexNext l).1.type = .string ∧ (lexNext l).1.origin = c :: w ∧ Lx cx .string text (lexNext l).2 := by
  obtain ⟨l0, h0, hl⟩ := h
  rw [hl]
  obtain ⟨rest, ctx, pos, behind, prepared⟩ := l0
  obtain ⟨e1, e2, e3, e4⟩ := h0
  simp only at e1 e2 e3 e4
  subst e1 e2 e3 e4
  obtain ⟨t, l', g1, g2, g3, g4⟩ := loop_string w (w ++ text).length.succ { pos with col := pos.col + 1 }
    { pos with col := pos.col + 1 } [c] h2 he (by simp)
  have e1 : lexNext ⟨c :: w ++ text, ctx, pos, behind, none⟩ = (t, l') := by
    refine lexNext_loop rfl ?_
    rw [← g1]
    conv_lhs => unfold emitLoop
    simp only [List.cons_append, raNext, h1 { pos with col := pos.col + 1 }]
    rfl
  rw [e1]
  exact ⟨g2, by simpa using g3, g4⟩

/-! ### The tokens of a text -/

/-- Where the parser is with respect to the lines of literal scalars, which it reads in raw mode after their first token, and of
folded ones (`g`), which it reads so after their second token: not in such a scalar; in its header; in a line, with `k` more spaces
of the indentation `m` in front; behind the first token of a line of a folded scalar; behind the tokens which are not read in raw
mode; in a line without content.  In directives the name is read in raw mode, the words of unknown ones, and the prefix of a `TAG`
directive with the token behind it: before the name (number `k` of the known ones); among the words; before the handle; behind
the first token of the handle; before the prefix; behind it. -/
inductive Phase
  | normal
  | name (k : Nat)
  | words
  | handle
  | handled
  | «prefix»
  | prefixed
  | header (g : Bool)
  | count (g : Bool) (k m : Nat)
  | near (m : Nat)
  | raw (g : Bool) (m : Nat)
  | gap (g : Bool) (m : Nat)
deriving DecidableEq

def Phase.isRaw : Phase → Bool
  | .raw _ _ => true
  | .name _ => true
  | .words => true
  | .prefix => true
  | .prefixed => true
  | _ => false

/-- The number of spaces in front. -/
def lead : List Char → Nat
  | ' ' :: r => lead r + 1
  | _ => 0

/-- The next line of a scalar with the indentation `m`, or what follows it. -/
def Phase.after (g : Bool) (m : Nat) (r : List Char) : Phase :=
  if (r.drop (lead r)).head? = some '\n' ∧ lead r ≤ m then .gap g m
  else if m ≤ lead r ∧ r.drop (lead r) ≠ [] then .count g m m
  else .normal

/-- The number of the directive with this text behind its `%`. -/
def dirKind (r : List Char) : Nat :=
  if r.takeWhile (fun c => c ∉ [' ', '\t', '\n', '\r', '\uFEFF']) = ['Y', 'A', 'M', 'L'] then 0
  else if r.takeWhile (fun c => c ∉ [' ', '\t', '\n', '\r', '\uFEFF']) = ['T', 'A', 'G'] then 1
  else 2

/-- After a token of type `ty`, with `r` in front. -/
def Phase.step : Phase → TokType → List Char → Phase
  | .normal, ty, r => if ty = .literal then .header false else if ty = .folded then .header true else
    if ty = .directive then .name (dirKind r) else .normal
  | .name k, ty, _ => if ty = .lineBreak ∨ ty = .eof then .normal else if k = 0 then .normal else if k = 1 then .handle else .words
  | .words, ty, _ => if ty = .lineBreak ∨ ty = .eof then .normal else .words
  | .handle, ty, _ => if ty = .lineBreak ∨ ty = .eof then .normal else if ty = .tag then .handled else .handle
  | .handled, ty, _ => if ty = .lineBreak ∨ ty = .eof then .normal else if ty = .space then .prefix else .handled
  | .prefix, ty, _ => if ty = .lineBreak ∨ ty = .eof then .normal else if ty = .string then .prefixed else .prefix
  | .prefixed, _, _ => .normal
  | .header g, ty, r => if ty = .lineBreak then .count g (lead r) (lead r) else if ty = .eof then .normal else .header g
  | .count g (k + 1) m, _, _ => .count g k m
  | .count g 0 m, ty, _ => if ty = .lineBreak ∨ ty = .eof then .normal else if g then .near m else .raw false m
  | .near m, ty, r => if ty = .lineBreak then .after true m r else if ty = .eof then .normal else .raw true m
  | .raw g m, ty, r => if ty = .lineBreak then .after g m r else if ty = .eof then .normal else .raw g m
  | .gap g m, ty, r => if ty = .lineBreak then .after g m r else if ty = .eof then .normal else .gap g m

/-- The tokenizer in the mode of a state. -/
def tuned (c : Lexer × Phase) : Lexer := setRawMode c.1 c.2.isRaw

/-- The tokenizer after `k` tokens. -/
def conf (s : Lexer) : Nat → Lexer × Phase
  | 0 => (s, .normal)
  | k + 1 => ((lexNext (tuned (conf s k))).2, (conf s k).2.step (lexNext (tuned (conf s k))).1.type (lexNext (tuned (conf s k))).2.rest)

/-- The tokens of a tokenizer, numbered from 1. -/
def toks (s : Lexer) : Toks where
  tok
    | 0 => {}
    | p + 1 => (lexNext (tuned (conf s p))).1
  raw
    | 0 => false
    | p + 1 => (conf s p).2.isRaw
  mode := false
  level := 0
  hold := false

theorem feed_toks (s : Lexer) : ∀ k n, feed (toks s) n k (conf s n).1 = (conf s (n + k)).1
  | 0, n => rfl
  | k + 1, n => by
    show feed (toks s) (n + 1) k (conf s (n + 1)).1 = _
    rw [feed_toks s k (n + 1), show n + 1 + k = n + (k + 1) from by omega]

theorem serves_toks (s : Lexer) : Serves (toks s) s 0 := by
  intro k
  rw [show 0 + 1 + k = k + 1 from by omega]
  have := feed_toks s k 0
  rw [show feed (toks s) 0 k s = _ from this, Nat.zero_add]
  rfl

/-- Not a bracket. -/
def NoBracket (t : Tok) : Prop :=
  t.type ≠ .mappingStart ∧ t.type ≠ .mappingEnd ∧ t.type ≠ .sequenceStart ∧ t.type ≠ .sequenceEnd

theorem NoBracket.free {t : Tok} (h : NoBracket t) : Parser.Free t := by
  obtain ⟨h1, h2, h3, h4⟩ := h
  simp [Parser.Free, isOpen, isClose, h1, h2, h3, h4]

/-- A closing bracket in place `i + 1` closes the last one which is open, and at the end there is none. -/
def Fit (w : Nat → Tok) (i : Nat) : Prop :=
  ((w (i + 1)).type = .sequenceEnd → ∃ s, stk w i = .sequenceStart :: s) ∧
  ((w (i + 1)).type = .mappingEnd → ∃ s, stk w i = .mappingStart :: s) ∧ ((w (i + 1)).type = .eof → stk w i = [])

/-- The brackets before token number `p` fit, and those which are open are `ks`. -/
structure Nest (w : Nat → Tok) (p : Nat) (ks : List TokType) : Prop where
  fit : ∀ i, i + 1 < p → Fit w i
  top : stk w (p - 1) = ks

theorem Nest.step {w : Nat → Tok} {ks : List TokType} (h : Nest w p ks) (hp : 1 ≤ p) (hn : NoBracket (w p))
    (he : (w p).type = .eof → ks = []) : Nest w (p + 1) ks := by
  obtain ⟨p, rfl⟩ : ∃ i, p = i + 1 := ⟨p - 1, by omega⟩
  have ht : stk w p = ks := h.top
  refine ⟨fun i hi => ?_, ?_⟩
  · by_cases h1 : i + 1 < p + 1
    · exact h.fit i h1
    · obtain rfl : i = p := by omega
      exact ⟨fun e => absurd e hn.2.2.2, fun e => absurd e hn.2.1, fun e => by rw [ht, he e]⟩
  · show stk w (p + 1) = ks
    rw [stk_keep hn.free.1 hn.free.2, ht]

theorem Nest.all {w : Nat → Tok} (h : Nest w p []) (hp : 1 ≤ p) (hn : ∀ i, p ≤ i → NoBracket (w i)) : ∀ i, Fit w i := by
  have key : ∀ k, Nest w (p + k) [] := by
    intro k
    induction k with
    | zero => exact h
    | succ k ih => exact ih.step (by omega) (hn _ (by omega)) (fun _ => rfl)
  exact fun i => (key (i + 2)).fit i (by omega)

/-- Neither a bracket nor the mark of a literal or folded scalar or of a directive. -/
def Plainly (ty : TokType) : Prop :=
  ty ≠ .mappingStart ∧ ty ≠ .mappingEnd ∧ ty ≠ .sequenceStart ∧ ty ≠ .sequenceEnd ∧ ty ≠ .literal ∧ ty ≠ .folded ∧ ty ≠ .directive

/-- Before token number `p` the tokenizer has `text` in front, in the context `cx`; the brackets `ks` are open. -/
structure FrontIn (s : Lexer) (ks : List TokType) (st : Phase) (cx : Ctx) (p : Nat) (b : TokType) (text : List Char) : Prop where
  pos : 1 ≤ p
  st : (conf s (p - 1)).2 = st
  lx : Lx cx b text (tuned (conf s (p - 1)))
  flat : Nest (toks s).tok p ks

/-- Outside of literal scalars and of brackets. -/
structure Front (s : Lexer) (cx : Ctx) (p : Nat) (b : TokType) (text : List Char) : Prop extends FrontIn s [] .normal cx p b text

theorem toks_pos (h : 1 ≤ p) : toks s p = (lexNext (tuned (conf s (p - 1)))).1 := by
  obtain ⟨p, rfl⟩ : ∃ i, p = i + 1 := ⟨p - 1, by omega⟩
  rfl

theorem conf_pos (h : 1 ≤ p) : conf s (p + 1 - 1) = ((lexNext (tuned (conf s (p - 1)))).2,
    (conf s (p - 1)).2.step (lexNext (tuned (conf s (p - 1)))).1.type (lexNext (tuned (conf s (p - 1)))).2.rest) := by
  obtain ⟨p, rfl⟩ : ∃ i, p = i + 1 := ⟨p - 1, by omega⟩
  rfl

theorem Front.calm (h : Front s cx (p + 1) b text) : Calm (toks s) p := by
  show (conf s p).2.isRaw = false
  rw [show (conf s p).2 = _ from h.st]
  rfl

theorem front_start (src : List Char) : Front (newTokenizer src) newCtx 1 .unknown src :=
  ⟨Nat.le_refl 1, rfl, ⟨_, ⟨rfl, rfl, rfl, rfl⟩, rfl⟩, ⟨fun i hi => by omega, rfl⟩⟩

/-- The mode of the tokenizer stays when a token is read. -/
theorem tuned_next (c : Lexer × Phase) {st : Phase} (h : st.isRaw = c.2.isRaw) :
    tuned ((lexNext (tuned c)).2, st) = (lexNext (tuned c)).2 := by
  have := StreamOk.raw_keep (σ := Lexer) (tuned c) c.2.isRaw (StreamOk.raw_raw (σ := Lexer) c.1 c.2.isRaw c.2.isRaw)
  show setRawMode _ st.isRaw = _
  rw [h]
  exact this

theorem FrontIn.step {st : Phase} {ks : List TokType} (h : FrontIn s ks st cx p b text) {st' : Phase} (hst : st.step (toks s p).type (lexNext (tuned (conf s (p - 1)))).2.rest = st')
    {b' : TokType} {text' : List Char} (hx : Lx cx' b' text' (tuned ((lexNext (tuned (conf s (p - 1)))).2, st')))
    {ks' : List TokType} (hn : Nest (toks s).tok (p + 1) ks') : FrontIn s ks' st' cx' (p + 1) b' text' := by
  rw [toks_pos h.pos] at hst
  have e : conf s (p + 1 - 1) = ((lexNext (tuned (conf s (p - 1)))).2, st') := by
    rw [conf_pos h.pos, h.st, hst]
  exact ⟨by omega, by rw [e], by rw [e]; exact hx, hn⟩

theorem Front.step {b' : TokType} {text' : List Char} (h : Front s cx p b text)
    (hx : Lx cx' b' text' (lexNext (tuned (conf s (p - 1)))).2)
    (hn : NoBracket (toks s p)) (hl : (toks s p).type ≠ .literal ∧ (toks s p).type ≠ .folded ∧ (toks s p).type ≠ .directive) : Front s cx' (p + 1) b' text' := by
  refine ⟨h.toFrontIn.step (by rw [Phase.step, if_neg hl.1, if_neg hl.2.1, if_neg hl.2.2]) ?_ (h.flat.step h.pos hn (fun _ => rfl))⟩
  rw [tuned_next _ (by rw [h.st])]
  exact hx

theorem Front.emit (h : Front s cx p b text) (he : Emits cx b text ty o cx' r') (hty : Plainly ty) :
    (toks s p).type = ty ∧ (toks s p).origin = o ∧ Front s cx' (p + 1) ty r' := by
  have h1 := lex_emits h.lx he
  rw [← toks_pos h.pos] at h1
  exact ⟨h1.1, h1.2.1, h.step h1.2.2 (by unfold NoBracket; rw [h1.1]; exact ⟨hty.1, hty.2.1, hty.2.2.1, hty.2.2.2.1⟩)
    (by rw [h1.1]; exact hty.2.2.2.2)⟩

theorem Front.string (h : Front s cx p b (c :: w ++ text)) (h1 : Passes cx b c (w ++ text)) (h2 : Runs cx w text)
    (he : Emits cx .string text ty o cx' r') :
    (toks s p).type = .string ∧ (toks s p).origin = c :: w ∧ Front s cx (p + 1) .string text := by
  have h1 := lex_string h.lx h1 h2 he
  rw [← toks_pos h.pos] at h1
  exact ⟨h1.1, h1.2.1, h.step h1.2.2 (by simp [NoBracket, h1.1]) (by simp [h1.1])⟩

/-! The same between brackets. -/

theorem FrontIn.calmly {ks : List TokType} (h : FrontIn s ks .normal cx (p + 1) b text) : Calm (toks s) p := by
  show (conf s p).2.isRaw = false
  rw [show (conf s p).2 = _ from h.st]
  rfl

theorem FrontIn.nextly {ks ks' : List TokType} {b' : TokType} {text' : List Char} (h : FrontIn s ks .normal cx p b text)
    (hx : Lx cx' b' text' (lexNext (tuned (conf s (p - 1)))).2) (hn : Nest (toks s).tok (p + 1) ks') (hl : (toks s p).type ≠ .literal ∧ (toks s p).type ≠ .folded ∧ (toks s p).type ≠ .directive) :
    FrontIn s ks' .normal cx' (p + 1) b' text' := by
  refine h.step (by rw [Phase.step, if_neg hl.1, if_neg hl.2.1, if_neg hl.2.2]) ?_ hn
  rw [tuned_next _ (by rw [h.st])]
  exact hx

theorem FrontIn.token {ks : List TokType} (h : FrontIn s ks .normal cx p b text) (he : Emits cx b text ty o cx' r') (hty : Plainly ty)
    (hk : ty ≠ .eof) : (toks s p).type = ty ∧ (toks s p).origin = o ∧ FrontIn s ks .normal cx' (p + 1) ty r' := by
  have h1 := lex_emits h.lx he
  rw [← toks_pos h.pos] at h1
  refine ⟨h1.1, h1.2.1, h.nextly h1.2.2 (h.flat.step h.pos ?_ fun e => ?_) (by rw [h1.1]; exact hty.2.2.2.2)⟩
  · show NoBracket (toks s p)
    unfold NoBracket
    rw [h1.1]
    exact ⟨hty.1, hty.2.1, hty.2.2.1, hty.2.2.2.1⟩
  · have e' : (toks s p).type = .eof := e
    rw [h1.1] at e'
    exact absurd e' hk

theorem FrontIn.chars {ks : List TokType} (h : FrontIn s ks .normal cx p b (c :: w ++ text)) (h1 : Passes cx b c (w ++ text))
    (h2 : Runs cx w text) (he : Emits cx .string text ty o cx' r') :
    (toks s p).type = .string ∧ (toks s p).origin = c :: w ∧ FrontIn s ks .normal cx (p + 1) .string text := by
  have h1 := lex_string h.lx h1 h2 he
  rw [← toks_pos h.pos] at h1
  refine ⟨h1.1, h1.2.1, h.nextly h1.2.2 (h.flat.step h.pos ?_ fun e => ?_) (by simp [h1.1])⟩
  · show NoBracket (toks s p)
    simp [NoBracket, h1.1]
  · have e' : (toks s p).type = .eof := e
    rw [h1.1] at e'
    cases e'

theorem Nest.opens {w : Nat → Tok} {ks : List TokType} (h : Nest w p ks) (hp : 1 ≤ p) (ho : isOpen (w p) = true) :
    Nest w (p + 1) ((w p).type :: ks) := by
  obtain ⟨p, rfl⟩ : ∃ i, p = i + 1 := ⟨p - 1, by omega⟩
  have ht : stk w p = ks := h.top
  refine ⟨fun i hi => ?_, ?_⟩
  · by_cases h1 : i + 1 < p + 1
    · exact h.fit i h1
    · obtain rfl : i = p := by omega
      rcases isOpen_iff.1 ho with h2 | h2 <;> simp [Fit, h2]
  · show stk w (p + 1) = _
    rw [stk_open ho, ht]

theorem Nest.closes {w : Nat → Tok} {ks : List TokType} {k : TokType} (h : Nest w p (k :: ks)) (hp : 1 ≤ p)
    (hc : (w p).type = .sequenceEnd ∧ k = .sequenceStart ∨ (w p).type = .mappingEnd ∧ k = .mappingStart) : Nest w (p + 1) ks := by
  obtain ⟨p, rfl⟩ : ∃ i, p = i + 1 := ⟨p - 1, by omega⟩
  have ht : stk w p = k :: ks := h.top
  refine ⟨fun i hi => ?_, ?_⟩
  · by_cases h1 : i + 1 < p + 1
    · exact h.fit i h1
    · obtain rfl : i = p := by omega
      rcases hc with ⟨h2, rfl⟩ | ⟨h2, rfl⟩ <;> simp [Fit, h2, ht]
  · show stk w (p + 1) = _
    rw [stk_close (by rcases hc with h2 | h2 <;> simp [isClose, h2.1]), ht]
    rfl

theorem FrontIn.opens {ks : List TokType} (h : FrontIn s ks .normal cx p b text) (he : Emits cx b text ty o cx' r')
    (hty : ty = .sequenceStart ∨ ty = .mappingStart) : (toks s p).type = ty ∧ FrontIn s (ty :: ks) .normal cx' (p + 1) ty r' := by
  have h1 := lex_emits h.lx he
  rw [← toks_pos h.pos] at h1
  have h2 := h.flat.opens h.pos (isOpen_iff.2 (show (toks s p).type = _ ∨ (toks s p).type = _ by rw [h1.1]; exact hty))
  rw [show ((toks s).tok p).type = ty from h1.1] at h2
  exact ⟨h1.1, h.nextly h1.2.2 h2 (by rw [h1.1]; rcases hty with rfl | rfl <;> simp)⟩

theorem FrontIn.closes {ks : List TokType} {k : TokType} (h : FrontIn s (k :: ks) .normal cx p b text) (he : Emits cx b text ty o cx' r')
    (hc : ty = .sequenceEnd ∧ k = .sequenceStart ∨ ty = .mappingEnd ∧ k = .mappingStart) :
    (toks s p).type = ty ∧ FrontIn s ks .normal cx' (p + 1) ty r' := by
  have h1 := lex_emits h.lx he
  rw [← toks_pos h.pos] at h1
  refine ⟨h1.1, h.nextly h1.2.2 (h.flat.closes h.pos ?_) (by rw [h1.1]; rcases hc with ⟨rfl, -⟩ | ⟨rfl, -⟩ <;> simp)⟩
  rw [show ((toks s).tok p).type = ty from h1.1]
  exact hc

/-- After the end of a line the tokenizer is not in raw mode. -/
theorem toks_brk (hp : 1 ≤ p) (h : isBreakOrEOF (toks s p) = true) : Calm (toks s) p := by
  have e : (conf s p).2 = (conf s (p - 1)).2.step (toks s p).type (lexNext (tuned (conf s (p - 1)))).2.rest := by
    have := conf_pos (s := s) hp
    rw [toks_pos hp]
    exact congrArg Prod.snd this
  show (conf s p).2.isRaw = false
  rw [e]
  simp only [isBreakOrEOF, Bool.or_eq_true, decide_eq_true_eq] at h
  have ha : ∀ g m r, (Phase.after g m r).isRaw = false := by
    intro g m r
    unfold Phase.after
    split
    · rfl
    · split <;> rfl
  generalize (conf s (p - 1)).2 = st
  cases st with
  | normal => rcases h with h | h <;> simp [Phase.step, h, Phase.isRaw]
  | header => rcases h with h | h <;> simp [Phase.step, h, Phase.isRaw]
  | name | words | handle | handled | «prefix» | prefixed => rcases h with h | h <;> simp [Phase.step, h, Phase.isRaw]
  | count g k m =>
    cases k with
    | zero => rcases h with h | h <;> simp [Phase.step, h, Phase.isRaw]
    | succ k => rfl
  | near m => rcases h with h | h <;> simp [Phase.step, h, ha] <;> rfl
  | raw g m => rcases h with h | h <;> simp [Phase.step, h, ha] <;> rfl
  | gap g m => rcases h with h | h <;> simp [Phase.step, h, ha] <;> rfl

/-- The tokens are in order. -/
theorem toks_ready (src : List Char) : ∀ k, ∃ p text, Ready (tuned (conf (newTokenizer src) k)) p text ∧
    ∀ i, 1 ≤ i → i ≤ k → (toks (newTokenizer src) i).start = p ∨ Before (toks (newTokenizer src) i).start p
  | 0 => ⟨⟨1, 0⟩, src, ready_setRaw (l := newTokenizer src) ⟨rfl, rfl⟩ _, fun i h1 h2 => by omega⟩
  | k + 1 => by
    obtain ⟨p, text, hr, hb⟩ := toks_ready src k
    obtain ⟨tok, l', q, text', h1, h2, h3, h4, -⟩ := next_spec _ _ p text hr (Nat.le_refl _)
    have e : lexNext (tuned (conf (newTokenizer src) k)) = (tok, l') := by simp [lexNext, h1]
    obtain ⟨o1, o2, o3⟩ := Props.Lexer.placed_order h2
    have hq : tok.start = q ∨ Before tok.start q := by
      rcases o2 with o2 | o2 <;> rcases o3 with o3 | o3
      · exact .inl (o2.trans o3)
      · exact .inr (o2 ▸ o3)
      · exact .inr (o3 ▸ o2)
      · exact .inr (Props.Lexer.before_trans o2 o3)
    refine ⟨q, text', ready_setRaw (by rw [conf, e]; exact h4) _, fun i h5 h6 => ?_⟩
    by_cases hi : i = k + 1
    · subst hi
      rw [show toks (newTokenizer src) (k + 1) = tok from congrArg Prod.fst e]
      exact hq
    · right
      have h7 : Before (toks (newTokenizer src) i).start tok.start := by
        rcases hb i h5 (by omega) with h | h
        · rw [h]; exact o1
        · exact Props.Lexer.before_trans h o1
      rcases hq with h | h
      · rw [← h]; exact h7
      · exact Props.Lexer.before_trans h7 h

theorem toks_before (src : List Char) {i j : Nat} (hi : 1 ≤ i) (hj : i < j) :
    Before (toks (newTokenizer src) i).start (toks (newTokenizer src) j).start := by
  obtain ⟨k, rfl⟩ : ∃ k, j = k + 1 := ⟨j - 1, by omega⟩
  obtain ⟨p, text, hr, hb⟩ := toks_ready src k
  obtain ⟨tok, l', q, text', h1, h2, -⟩ := next_spec _ _ p text hr (Nat.le_refl _)
  have e : lexNext (tuned (conf (newTokenizer src) k)) = (tok, l') := by simp [lexNext, h1]
  obtain ⟨o1, -⟩ := Props.Lexer.placed_order h2
  rw [show toks (newTokenizer src) (k + 1) = tok from congrArg Prod.fst e]
  rcases hb i hi (by omega) with h | h
  · rw [h]; exact o1
  · exact Props.Lexer.before_trans h o1

theorem toks_inj (src : List Char) (i j : Nat) (hi : 1 ≤ i) (hj : 1 ≤ j)
    (h : (toks (newTokenizer src) i).start = (toks (newTokenizer src) j).start) : i = j := by
  have irr : ∀ x : Pos, ¬ Before x x := fun x hx => by unfold Before at hx; omega
  rcases Nat.lt_trichotomy i j with h1 | h1 | h1
  · have := toks_before src hi h1
    rw [h] at this
    exact absurd this (irr _)
  · exact h1
  · have := toks_before src hj h1
    rw [h] at this
    exact absurd this (irr _)

/-! ### Single tokens -/

theorem match_block (h : l.ctx = newCtx) (r : Option Char) : matchSpecialToken l r = blockMatching l r := by
  simp [matchSpecialToken, h, newCtx, Ctx.currentType]

/-- The contexts of comments and tags. -/
def commentCtx : Ctx := ⟨[.comment], false, false⟩

def tagCtx : Ctx := ⟨[.tag], false, false⟩

/-- The contexts which end with the line. -/
inductive Loose : Ctx → Prop
  | block : Loose newCtx
  | comment : Loose commentCtx
  | tag : Loose tagCtx

/-- The contexts which end with a space. -/
inductive Lax : Ctx → Prop
  | block : Lax newCtx
  | tag : Lax tagCtx

theorem Lax.loose (h : Lax cx) : Loose cx := by cases h <;> constructor

theorem emits_eof (h : Loose cx) : Emits cx b [] .eof [] cx [] := by
  intro pos
  cases h <;> exact ⟨_, _, rfl, rfl, rfl⟩

theorem emits_line (h : Loose cx) : Emits cx b ('\n' :: r) .lineBreak ['\n'] newCtx r := by
  intro pos
  cases h <;> exact ⟨_, _, rfl, rfl, rfl⟩

theorem emits_cr (h : Loose cx) (hr : r.head? ≠ some '\n') : Emits cx b ('\r' :: r) .lineBreak ['\r'] newCtx r := by
  intro pos
  cases r with
  | nil => cases h <;> exact ⟨_, _, rfl, rfl, rfl⟩
  | cons c r =>
    have hc : c ≠ '\n' := by simpa using hr
    cases h <;> refine ⟨⟨.lineBreak, pos, pos, ['\r']⟩, ⟨pos.row + 1, 0⟩, ?_, rfl, rfl⟩ <;>
      simp [raNext, matchSpecialToken, Ctx.currentType, blockMatching, commentMatching, tagMatching, baseMatching, lookahead, hc,
        newCtx, commentCtx, tagCtx, Ctx.lineBreakRevertContext] <;> rfl

theorem emits_crlf (h : Loose cx) : Emits cx b ('\r' :: '\n' :: r) .lineBreak ['\r', '\n'] newCtx r := by
  intro pos
  cases h <;> exact ⟨_, _, rfl, rfl, rfl⟩

theorem emits_return (h : Loose cx) : ∃ o r', Emits cx b ('\r' :: r) .lineBreak o newCtx r' := by
  by_cases hr : r.head? = some '\n'
  · obtain ⟨r, rfl⟩ : ∃ r', r = '\n' :: r' := by
      cases r with
      | nil => cases hr
      | cons c r => cases hr; exact ⟨r, rfl⟩
    exact ⟨_, _, emits_crlf h⟩
  · exact ⟨_, _, emits_cr h hr⟩

theorem emits_space (h : Lax cx) : Emits cx b (' ' :: r) .space [' '] newCtx r := by
  intro pos
  cases h <;> exact ⟨_, _, rfl, rfl, rfl⟩

theorem blankAhead_of (h : blankOrEOF r.head? = true) {cx : Ctx} {pos : Pos} {pr : Option Tok} :
    blankAhead ⟨r, cx, pos, b, pr⟩ = true := by
  cases r <;> simpa [blankAhead, lookahead, raNext] using h

theorem blankAhead_not (h : blankOrEOF r.head? = false) {cx : Ctx} {pos : Pos} {pr : Option Tok} :
    blankAhead ⟨r, cx, pos, b, pr⟩ = false := by
  cases r <;> simpa [blankAhead, lookahead, raNext] using h

theorem emits_colon (h : blankOrEOF r.head? = true) : Emits newCtx b (':' :: r) .mappingValue [':'] newCtx r := by
  intro pos
  exact ⟨_, _, (match_block rfl _).trans (if_pos (blankAhead_of h)), rfl, rfl⟩

theorem emits_dash (h : blankOrEOF r.head? = true) (hb : b.mayPrecedeWord = true) :
    Emits newCtx b ('-' :: r) .sequenceEntry ['-'] newCtx r := by
  intro pos
  exact ⟨_, _, (match_block rfl _).trans (if_pos (by simp only [raNext]; rw [blankAhead_of h, hb]; rfl)), rfl, rfl⟩

theorem emits_ask (h : blankOrEOF r.head? = true) (hb : b.mayPrecedeWord = true) :
    Emits newCtx b ('?' :: r) .mappingKey ['?'] newCtx r := by
  intro pos
  exact ⟨_, _, (match_block rfl _).trans (if_pos (by simp only [raNext]; rw [blankAhead_of h, hb]; rfl)), rfl, rfl⟩

theorem emits_sharp (hb : b.mayPrecedeWord = true) : Emits newCtx b ('#' :: r) .comment ['#'] commentCtx r := by
  intro pos
  exact ⟨_, _, (match_block rfl _).trans (if_pos hb), rfl, rfl⟩

theorem emits_amp (hb : b.mayPrecedeWord = true) : Emits newCtx b ('&' :: r) .anchor ['&'] newCtx r := by
  intro pos
  exact ⟨_, _, (match_block rfl _).trans (if_pos hb), rfl, rfl⟩

theorem emits_star (hb : b.mayPrecedeWord = true) : Emits newCtx b ('*' :: r) .alias ['*'] newCtx r := by
  intro pos
  exact ⟨_, _, (match_block rfl _).trans (if_pos hb), rfl, rfl⟩

theorem emits_bang : Emits newCtx b ('!' :: r) .tag ['!'] tagCtx r := fun _ => ⟨_, _, rfl, rfl, rfl⟩

theorem emits_bang2 : Emits tagCtx b ('!' :: r) .tag ['!'] tagCtx r := fun _ => ⟨_, _, rfl, rfl, rfl⟩

theorem tripleAhead_of {c : Char} (h : blankOrEOF r.head? = true) {cx : Ctx} {pos : Pos} {pr : Option Tok} :
    tripleAhead c ⟨c :: c :: r, cx, pos, b, pr⟩ = true := by
  cases r <;> simpa [tripleAhead, lookahead, raNext] using h

theorem emits_dashes (h : blankOrEOF r.head? = true) (hb : b.mayPrecedeWord = true) :
    Emits newCtx b ('-' :: '-' :: '-' :: r) .directiveEnd ['-', '-', '-'] newCtx r := by
  intro pos
  have e : blockMatching ⟨'-' :: '-' :: r, newCtx, pos, b, none⟩ (some '-') =
      triple ⟨'-' :: '-' :: r, newCtx, pos, b, none⟩ .directiveEnd '-' := by
    unfold blockMatching
    simp only
    rw [if_neg, if_pos]
    · rw [tripleAhead_of h, hb]; rfl
    · rw [blankAhead_not rfl]; simp
  exact ⟨_, _, (match_block rfl _).trans e, rfl, rfl⟩

theorem emits_dots (h : blankOrEOF r.head? = true) (hb : b.mayPrecedeWord = true) :
    Emits newCtx b ('.' :: '.' :: '.' :: r) .documentEnd ['.', '.', '.'] newCtx r := by
  intro pos
  exact ⟨_, _, (match_block rfl _).trans (if_pos (by simp only [raNext]; rw [tripleAhead_of h, hb]; rfl)), rfl, rfl⟩

theorem Front.spaces : ∀ {j p : Nat} {b : TokType} {cx : Ctx}, Lax cx → Front s cx p b (List.replicate j ' ' ++ r) →
    (∀ i < j, ((toks s (p + i)).type = .space ∧ Calm (toks s) (p + i)) ∧ (toks s (p + i)).origin = [' ']) ∧
    Front s (if j = 0 then cx else newCtx) (p + j) (if j = 0 then b else .space) r
  | 0, p, b, cx, _, h => ⟨fun i hi => by omega, h⟩
  | j + 1, p, b, cx, hc, h => by
    have h1 := h.emit (emits_space (r := List.replicate j ' ' ++ r) hc) (by simp [Plainly])
    have h2 := h1.2.2.spaces .block
    refine ⟨fun i hi => ?_, ?_⟩
    · cases i with
      | zero => exact ⟨⟨h1.1, h1.2.2.calm⟩, h1.2.1⟩
      | succ i =>
        rw [show p + (i + 1) = p + 1 + i from by omega]
        exact h2.1 i (by omega)
    · rw [show p + (j + 1) = p + 1 + j from by omega, if_neg (by omega), if_neg (by omega)]
      have h3 := h2.2
      by_cases hj : j = 0
      · rw [if_pos hj, if_pos hj] at h3; exact h3
      · rw [if_neg hj, if_neg hj] at h3; exact h3

theorem Front.ends (hc : Loose cx) (h : Front s cx p b []) : (∀ i, (toks s (p + i)).type = .eof) ∧ ∀ i, Fit (toks s).tok i := by
  have h0 : ∀ i, (toks s (p + i)).type = .eof ∧ Front s cx (p + i + 1) .eof [] := by
    intro i
    induction i with
    | zero =>
      have h1 := h.emit (emits_eof hc) (by simp [Plainly])
      exact ⟨h1.1, h1.2.2⟩
    | succ i ih =>
      have h1 := ih.2.emit (emits_eof hc) (by simp [Plainly])
      exact ⟨h1.1, h1.2.2⟩
  refine ⟨fun i => (h0 i).1, h.flat.all h.pos fun i hi => ?_⟩
  have := (h0 (i - p)).1
  rw [show p + (i - p) = i from by omega] at this
  simp [this, NoBracket]

/-! ### Words -/

theorem blank_forbidden (h : c ∉ forbidden) : blankOrEOF (some c) = false := by
  simp only [forbidden, List.mem_cons, List.not_mem_nil, or_false, not_or] at h
  simp [blankOrEOF, h]

theorem breaking_forbidden (h : c ∉ forbidden) : c ∉ breaking := by
  simp only [forbidden, breaking, List.mem_cons, List.not_mem_nil, or_false, not_or] at h ⊢
  simp [h]

theorem blank_breaking (h : c ∉ breaking) : blankOrEOF (some c) = false := by
  simp only [breaking, List.mem_cons, List.not_mem_nil, or_false, not_or] at h
  simp [blankOrEOF, h]

theorem _root_.Verif.PlainTree.Word.loose (h : PlainTree.Word w) : LooseWord w := by
  obtain ⟨c, r, rfl, hi⟩ := h.first
  refine ⟨fun d hd => breaking_forbidden (h.chars d hd), ⟨c, r, rfl, hi, ?_⟩, h.last, h.mark⟩
  have := h.chars c (by simp)
  simp only [forbidden, List.mem_cons, List.not_mem_nil, or_false, not_or] at this ⊢
  simp [this]

/-- Inside of a word. -/
theorem passes_mid (hc : c ∉ breaking) (hcol : c = ':' → blankOrEOF r.head? = false) : Passes newCtx .string c r := by
  intro pos
  rw [match_block rfl]
  have hcol' : c = ':' → blankAhead ⟨r, newCtx, pos, .string, none⟩ = false := fun h => blankAhead_not (hcol h)
  simp only [breaking, List.mem_cons, List.not_mem_nil, or_false, not_or] at hc
  unfold blockMatching baseMatching
  split <;> simp_all [TokType.mayPrecedeWord]

/-- At the start of a word. -/
theorem passes_first (hc : c ∉ breaking) (hi : c ∉ indicators) (hb : c ∉ ['[', '{']) (hcol : c = ':' ∨ c = '-' ∨ c = '?' → blankOrEOF r.head? = false)
    (ht : c = '-' ∨ c = '.' → ∀ pos, tripleAhead c ⟨r, newCtx, pos, b, none⟩ = false) : Passes newCtx b c r := by
  intro pos
  rw [match_block rfl]
  have hcol' : c = ':' ∨ c = '-' ∨ c = '?' → blankAhead ⟨r, newCtx, pos, b, none⟩ = false := fun h => blankAhead_not (hcol h)
  simp only [breaking, indicators, List.mem_cons, List.not_mem_nil, or_false, not_or] at hc hi hb
  unfold blockMatching baseMatching
  split <;> simp_all

/-- What ends a word: a space, the end of the line or of the text, or a colon before one of these. -/
inductive Halt : List Char → Prop
  | space {r : List Char} : Halt (' ' :: r)
  | line {r : List Char} : Halt ('\n' :: r)
  | cr {r : List Char} : Halt ('\r' :: r)
  | eof : Halt []
  | colon {r : List Char} : blankOrEOF r.head? = true → Halt (':' :: r)

theorem Halt.emits (h : Halt text) : ∃ ty o r', Emits newCtx .string text ty o newCtx r' := by
  cases h with
  | space => exact ⟨_, _, _, emits_space .block⟩
  | line => exact ⟨_, _, _, emits_line .block⟩
  | @cr r => obtain ⟨o, r', h⟩ := emits_return (b := .string) (r := r) .block; exact ⟨_, o, r', h⟩
  | eof => exact ⟨_, _, _, emits_eof .block⟩
  | colon h => exact ⟨_, _, _, emits_colon h⟩

theorem runs_word : ∀ {w : List Char}, (∀ c ∈ w, c ∉ breaking) → w.getLast? ≠ some ':' → Runs newCtx w text
  | [], _, _ => trivial
  | c :: w, hw, hl => by
    refine ⟨passes_mid (hw c (by simp)) ?_, runs_word (fun d hd => hw d (by simp [hd])) ?_⟩
    · rintro rfl
      cases w with
      | nil => simp at hl
      | cons d w => exact blank_breaking (hw d (by simp))
    · cases w with
      | nil => simp
      | cons d w => simpa [List.getLast?_cons_cons] using hl

theorem passes_word (hw : LooseWord (c :: w)) (hs : Halt text) : Passes newCtx b c (w ++ text) := by
  obtain ⟨c', v, e, hi, hb⟩ := hw.first
  injection e with e1 e2
  subst e1 e2
  have hl := hw.last
  have hk := hw.mark
  have hv : ∀ d ∈ w, d ∉ breaking := fun d hd => hw.chars d (by simp [hd])
  refine passes_first (hw.chars c (by simp)) hi hb ?_ ?_
  · intro hc
    cases w with
    | nil => rcases hc with rfl | rfl | rfl <;> simp [markers] at hk hl
    | cons d v => exact blank_breaking (hv d (by simp))
  · intro hc pos
    unfold tripleAhead
    cases w with
    | nil =>
      cases hs with
      | eof => simp [lookahead, raNext]
      | @space r | @line r | @cr r | @colon r => cases r <;> rcases hc with rfl | rfl <;> simp [lookahead, raNext] <;> intros <;> simp_all
    | cons d v =>
      cases v with
      | nil =>
        cases hs with
        | eof => simp [lookahead, raNext] <;> intros <;> simp_all
        | @space r | @line r | @cr r | @colon r => cases r <;> rcases hc with rfl | rfl <;> simp [lookahead, raNext] <;> intros <;> simp_all
      | cons d' v =>
        cases v with
        | nil =>
          have : ∀ x, lookahead 3 (d :: d' :: text) = [some d, some d', x] → (match lookahead 3 (d :: d' :: text) with
            | [a, b, d] => a = b && b = some c && blankOrEOF d
            | _ => false) = false := by
            intro x hx
            rw [hx]
            simp only [Bool.and_eq_false_iff, decide_eq_false_iff_not, Option.some.injEq]
            by_cases h1 : d = d'
            · by_cases h2 : d' = c
              · subst h1 h2
                rcases hc with rfl | rfl <;> simp [markers] at hk
              · exact .inl (.inr h2)
            · exact .inl (.inl h1)
          exact this _ rfl
        | cons d3 v =>
          simp only [lookahead, raNext, List.cons_append, List.nil_append, blank_breaking (hv d3 (by simp)), Bool.and_false]

theorem Front.looseWord (h : Front s newCtx p b (w ++ text)) (hw : LooseWord w) (hs : Halt text) :
    (toks s p).type = .string ∧ (toks s p).origin = w ∧ Front s newCtx (p + 1) .string text := by
  obtain ⟨c, v, rfl, -⟩ := hw.first
  obtain ⟨ty, o, r', he⟩ := hs.emits
  refine h.string (passes_word hw hs) (runs_word (fun d hd => hw.chars d (by simp [hd])) ?_) he
  have hl := hw.last
  cases v with
  | nil => simp
  | cons d w => simpa [List.getLast?_cons_cons] using hl

theorem Front.word (h : Front s newCtx p b (w ++ text)) (hw : PlainTree.Word w) (hs : Halt text) :
    (toks s p).type = .string ∧ (toks s p).origin = w ∧ Front s newCtx (p + 1) .string text := h.looseWord hw.loose hs

/-! ### Phrases -/

theorem PlainRun.spaces {W : Toks} {ctx : PCtx} {q : Nat} (h : PlainRun W ctx (p + j) t q) (hs : (W (p + j)).type = .string)
    (hp : isPlainSafeToken (W (p + j)) ctx = true)
    (hj : ∀ i < j, ((W (p + i)).type = .space ∧ Calm W (p + i)) ∧ (W (p + i)).origin = [' ']) : PlainRun W ctx p (List.replicate j ' ' ++ t) q := by
  cases h with
  | @stop _ i h1 h2 =>
    cases i with
    | succ i => have := h1.1 0 (by omega); simp [hs] at this
    | zero => rw [show isPlainSafeToken (W (p + j)) ctx = false from h2] at hp; cases hp
  | @word _ i t _ h h2 hc h3 h4 =>
    cases i with
    | succ i => have := (h 0 (by omega)).1; simp [hs] at this
    | zero =>
      have := PlainRun.word hj h2 hc h3 h4
      simpa using this

theorem safe_word {k : Tok} (h : k.type = .string) (hw : ∀ c ∈ k.origin, c ∉ forbidden) : isPlainSafeToken k .blockKey = true := by
  simp only [isPlainSafeToken, stringIn, h, YamlChar.conformsCharSet, YamlChar.isPlainSafeString, decide_true, Bool.true_and,
    List.all_eq_true]
  intro c hc
  have := hw c hc
  simp only [forbidden, List.mem_cons, List.not_mem_nil, or_false, not_or] at this
  simp [YamlChar.isFlowIndicatorChar, this]

/-- What is in front is neither white space nor part of a string, but spaces may precede. -/
theorem Front.phrase (hs : Halt text) (hn : ∀ {p b}, Front s newCtx p b text → ∃ j, Sp (toks s) p j ∧ (toks s (p + j)).type ≠ .string)
    (ht : Phrase t) : ∀ {p : Nat} {b : TokType}, Front s newCtx p b (t ++ text) →
    ∃ q, Word (toks s) p t q ∧ Front s newCtx q .string text := by
  induction ht with
  | @word w hw =>
    intro p b h
    have h1 := h.word hw hs
    have h0 := safe_word h1.1 (by simpa [h1.2.1] using hw.chars)
    refine ⟨p + 1, ⟨h.pos, h1.1, h0, ?_, hn h1.2.2⟩, h1.2.2⟩
    obtain ⟨j, g1, g2⟩ := hn h1.2.2
    have := PlainRun.word (W := toks s) (ctx := .blockKey) (p := p) (j := 0) (fun i hi => by omega) h1.1 h1.2.2.calm
      h0 (.stop g1 (isPlainSafeToken_string g2))
    simpa [h1.2.1] using this
  | @more w t j hw _ ih =>
    intro p b h
    have e : w ++ (List.replicate (j + 1) ' ' ++ t) ++ text = w ++ (List.replicate (j + 1) ' ' ++ (t ++ text)) := by
      simp
    rw [e] at h
    have h1 := h.word hw (by simp only [List.replicate_succ]; exact .space)
    have h2 := h1.2.2.spaces .block
    simp only [Nat.add_eq_zero_iff, Nat.one_ne_zero, and_false, if_false] at h2
    obtain ⟨q, h3, h5⟩ := ih h2.2
    have h0 := safe_word h1.1 (by simpa [h1.2.1] using hw.chars)
    refine ⟨q, ⟨h.pos, h1.1, h0, ?_, h3.halt⟩, h5⟩
    have h6 : PlainRun (toks s) .blockKey (p + 1) (List.replicate (j + 1) ' ' ++ t) q :=
      PlainRun.spaces h3.run h3.str h3.safe h2.1
    have := PlainRun.word (W := toks s) (ctx := .blockKey) (p := p) (j := 0) (fun i hi => by omega) h1.1 h1.2.2.calm
      h0 h6
    simpa [h1.2.1] using this

/-- The same, for words with commas and brackets. -/
theorem Front.clause (hs : Halt text) (hn : ∀ {p b}, Front s newCtx p b text → ∃ j, Sp (toks s) p j ∧ (toks s (p + j)).type ≠ .string)
    (ht : Clause t) : ∀ {p : Nat} {b : TokType}, Front s newCtx p b (t ++ text) →
    ∃ q, Wide (toks s) p t q ∧ Front s newCtx q .string text := by
  induction ht with
  | @word w hw =>
    intro p b h
    have h1 := h.looseWord hw hs
    refine ⟨p + 1, ⟨h.pos, h1.1, ?_⟩, h1.2.2⟩
    obtain ⟨j, g1, g2⟩ := hn h1.2.2
    have := PlainRun.word (W := toks s) (ctx := .flowOut) (p := p) (j := 0) (fun i hi => by omega) h1.1 h1.2.2.calm
      (safe_flowOut.2 h1.1) (.stop g1 (isPlainSafeToken_string g2))
    simpa [h1.2.1] using this
  | @more w t j hw _ ih =>
    intro p b h
    have e : w ++ (List.replicate (j + 1) ' ' ++ t) ++ text = w ++ (List.replicate (j + 1) ' ' ++ (t ++ text)) := by
      simp
    rw [e] at h
    have h1 := h.looseWord hw (by simp only [List.replicate_succ]; exact .space)
    have h2 := h1.2.2.spaces .block
    simp only [Nat.add_eq_zero_iff, Nat.one_ne_zero, and_false, if_false] at h2
    obtain ⟨q, h3, h5⟩ := ih h2.2
    refine ⟨q, ⟨h.pos, h1.1, ?_⟩, h5⟩
    have h6 : PlainRun (toks s) .flowOut (p + 1) (List.replicate (j + 1) ' ' ++ t) q :=
      PlainRun.spaces h3.run h3.str (safe_flowOut.2 h3.str) h2.1
    have := PlainRun.word (W := toks s) (ctx := .flowOut) (p := p) (j := 0) (fun i hi => by omega) h1.1 h1.2.2.calm
      (safe_flowOut.2 h1.1) h6
    simpa [h1.2.1] using this

end Verif.Parser
