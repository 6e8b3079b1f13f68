import Verif.Lemmas.TextRun
import Verif.Lemmas.ParserRunFlow

/-!
The tokens of collections in brackets.
-/

set_option linter.unusedSimpArgs false
set_option linter.unusedSectionVars false

namespace Verif.Parser

open Verif.Token Verif.Lexer Verif.Ast Verif.PlainTree
open Verif.BlockText (sp Name nameChar)

variable {b ty : TokType} {text r w t u v : List Char} {l : Lexer} {c x : Char} {d : Bool} {s : Lexer} {p q j i n : Nat}
variable {e : Node} {st : List CtxType} {ks : List TokType}

/-! ### Single tokens -/

/-- The context between brackets. -/
abbrev flowCtx (st : List CtxType) : Ctx := ctxOf (.flow :: st)

theorem match_flow (h : l.ctx = flowCtx st) (r : Option Char) : matchSpecialToken l r = flowMatching l r := by
  simp [matchSpecialToken, h, Ctx.currentType]

theorem emitsF_space : Emits (flowCtx st) b (' ' :: r) .space [' '] (flowCtx st) r := fun _ => ⟨_, _, rfl, rfl, rfl⟩

theorem emitsF_line : Emits (flowCtx st) b ('\n' :: r) .lineBreak ['\n'] (flowCtx st) r := fun _ => ⟨_, _, rfl, rfl, rfl⟩

theorem emitsF_crlf : Emits (flowCtx st) b ('\r' :: '\n' :: r) .lineBreak ['\r', '\n'] (flowCtx st) r := fun _ => ⟨_, _, rfl, rfl, rfl⟩

theorem emitsF_cr (hr : r.head? ≠ some '\n') : Emits (flowCtx st) b ('\r' :: r) .lineBreak ['\r'] (flowCtx st) r := by
  intro pos
  cases r with
  | nil => exact ⟨_, _, rfl, rfl, rfl⟩
  | cons c r =>
    have hc : c ≠ '\n' := by simpa using hr
    refine ⟨⟨.lineBreak, pos, pos, ['\r']⟩, ⟨pos.row + 1, 0⟩, (match_flow rfl _).trans ?_, rfl, rfl⟩
    simp [raNext, flowMatching, baseMatching, lookahead, hc, Ctx.lineBreakRevertContext]
    rfl

theorem emitsF_break (h : BlockText.Break u r) : ∃ o, Emits (flowCtx st) b (u ++ r) .lineBreak o (flowCtx st) r := by
  cases h with
  | lf => exact ⟨_, emitsF_line⟩
  | crlf => exact ⟨_, emitsF_crlf⟩
  | cr h => exact ⟨_, emitsF_cr h⟩

theorem emitsF_return : ∃ o r', Emits (flowCtx st) b ('\r' :: r) .lineBreak o (flowCtx st) r' := by
  by_cases hr : r.head? = some '\n'
  · obtain ⟨r, rfl⟩ : ∃ r', r = '\n' :: r' := by
      cases r with
      | nil => cases hr
      | cons c r => cases hr; exact ⟨r, rfl⟩
    exact ⟨_, _, emitsF_crlf⟩
  · exact ⟨_, _, emitsF_cr hr⟩

theorem emitsF_comma : Emits (flowCtx st) b (',' :: r) .collectEntry [','] (flowCtx st) r := fun _ => ⟨_, _, rfl, rfl, rfl⟩

theorem emitsF_seqEnd : Emits (flowCtx st) b (']' :: r) .sequenceEnd [']'] (ctxOf st) r := fun _ => ⟨_, _, rfl, rfl, rfl⟩

theorem emitsF_mapEnd : Emits (flowCtx st) b ('}' :: r) .mappingEnd ['}'] (ctxOf st) r := fun _ => ⟨_, _, rfl, rfl, rfl⟩

/-- A colon before this text is one of a mapping. -/
def TurnF (r : List Char) : Prop := blankOrEOF r.head? = true ∨ ∃ c r', r = c :: r' ∧ isFlowIndicatorChar c = true

theorem emitsF_ask (h : blankOrEOF r.head? = true) (hb : mayPrecedeWordInFlow b = true) :
    Emits (flowCtx st) b ('?' :: r) .mappingKey ['?'] (flowCtx st) r := by
  intro pos
  refine ⟨_, _, (match_flow rfl _).trans (if_pos ?_), rfl, rfl⟩
  have : blankAhead ⟨r, flowCtx st, pos, b, none⟩ = true := by
    cases r <;> simp_all [blankAhead, lookahead, raNext]
  simp only [raNext]
  rw [this]
  simpa using hb

theorem emitsF_colon (h : TurnF r) : Emits (flowCtx st) b (':' :: r) .mappingValue [':'] (flowCtx st) r := by
  intro pos
  refine ⟨_, _, (match_flow rfl _).trans (if_pos ?_), rfl, rfl⟩
  have : blankOrFlowAhead ⟨r, flowCtx st, pos, b, none⟩ = true := by
    rcases h with h | ⟨c, r', rfl, h⟩
    · cases r <;> simp_all [blankOrFlowAhead, lookahead, raNext]
    · simp [blankOrFlowAhead, lookahead, raNext, h]
  simp only [raNext]
  rw [this]
  rfl

theorem emitsF_colonQ : Emits (flowCtx st) (quoteTok d) (':' :: r) .mappingValue [':'] (flowCtx st) r := by
  intro pos
  refine ⟨_, _, (match_flow rfl _).trans (if_pos ?_), rfl, rfl⟩
  cases d <;> simp [canBeAdjacent, quoteTok]

theorem emitsF_star (h : mayPrecedeWordInFlow b = true) : Emits (flowCtx st) b ('*' :: r) .alias ['*'] (flowCtx st) r := by
  intro pos
  exact ⟨_, _, (match_flow rfl _).trans (if_pos h), rfl, rfl⟩

theorem emitsF_quote (h : mayPrecedeWordInFlow b = true ∨ b = .mappingValue) :
    Emits (flowCtx st) b (quoteChar d :: r) (quoteTok d) [quoteChar d] (quoteCtx d (.flow :: st)) r := by
  intro pos
  cases d <;> exact ⟨_, _, (match_flow rfl _).trans (if_pos (by rcases h with h | h <;> simp [h])), rfl, rfl⟩

/-- A bracket may open here. -/
inductive Opening : List CtxType → TokType → Prop
  | block {b : TokType} : b.mayPrecedeWord = true → Opening [] b
  | flow {b : TokType} {st : List CtxType} : mayPrecedeWordInFlow b = true → Opening (.flow :: st) b

theorem emits_seqStart (h : Opening st b) : Emits (ctxOf st) b ('[' :: r) .sequenceStart ['['] (flowCtx st) r := by
  intro pos
  cases h with
  | block h => exact ⟨_, _, (match_block rfl _).trans (if_pos h), rfl, rfl⟩
  | flow h => exact ⟨_, _, (match_flow rfl _).trans (if_pos h), rfl, rfl⟩

theorem emits_mapStart (h : Opening st b) : Emits (ctxOf st) b ('{' :: r) .mappingStart ['{'] (flowCtx st) r := by
  intro pos
  cases h with
  | block h => exact ⟨_, _, (match_block rfl _).trans (if_pos h), rfl, rfl⟩
  | flow h => exact ⟨_, _, (match_flow rfl _).trans (if_pos h), rfl, rfl⟩

theorem FrontIn.spacesF : ∀ {j p : Nat} {b : TokType}, FrontIn s ks .normal (flowCtx st) p b (sp j ++ r) →
    (∀ i < j, ((toks s (p + i)).type = .space ∧ Calm (toks s) (p + i)) ∧ (toks s (p + i)).origin = [' ']) ∧
    FrontIn s ks .normal (flowCtx st) (p + j) (if j = 0 then b else .space) r
  | 0, p, b, h => ⟨fun i hi => by omega, h⟩
  | j + 1, p, b, h => by
    have h1 := FrontIn.token h (emitsF_space (r := sp j ++ r)) (by simp [Plainly]) (by simp)
    have h2 := h1.2.2.spacesF
    refine ⟨fun i hi => ?_, ?_⟩
    · cases i with
      | zero => exact ⟨⟨h1.1, h1.2.2.calmly⟩, h1.2.1⟩
      | succ i =>
        rw [show p + (i + 1) = p + 1 + i from by omega]
        exact h2.1 i (by omega)
    · rw [show p + (j + 1) = p + 1 + j from by omega, if_neg (by omega)]
      simpa using h2.2

theorem Sp.make {W : Toks} (h : ∀ i < j, ((W (p + i)).type = .space ∧ Calm W (p + i)) ∧ (W (p + i)).origin = [' '])
    (h1 : (W (p + j)).type ≠ .space) (h2 : (W (p + j)).type ≠ .tab) : Sp W p j := ⟨fun i hi => (h i hi).1, h1, h2⟩

/-! ### Words -/

theorem passesF_mid (hc : c ∉ forbidden) (hcol : c = ':' → ∃ d r', r = d :: r' ∧ d ∉ forbidden) : Passes (flowCtx st) .string c r := by
  intro pos
  rw [match_flow rfl]
  have hcol' : c = ':' → blankOrFlowAhead ⟨r, flowCtx st, pos, .string, none⟩ = false := by
    intro h
    obtain ⟨d, r', rfl, hd⟩ := hcol h
    simp only [forbidden, List.mem_cons, List.not_mem_nil, or_false, not_or] at hd
    simp [blankOrFlowAhead, lookahead, raNext, blankOrEOF, isFlowIndicatorChar, hd]
  simp only [forbidden, List.mem_cons, List.not_mem_nil, or_false, not_or] at hc
  unfold flowMatching baseMatching
  split <;> simp_all [mayPrecedeWordInFlow, TokType.mayPrecedeWord, TokType.isOpeningFlowIndicator, canBeAdjacent,
    TokType.isClosingFlowIndicator]

theorem passesF_first (hc : c ∉ forbidden) (hi : c ∉ indicators) (hcol : c = ':' ∨ c = '?' → ∃ d r', r = d :: r' ∧ d ∉ forbidden)
    (hb : c = ':' → canBeAdjacent b = false) : Passes (flowCtx st) b c r := by
  intro pos
  rw [match_flow rfl]
  have hcol' : c = ':' ∨ c = '?' → blankOrFlowAhead ⟨r, flowCtx st, pos, b, none⟩ = false ∧
      blankAhead ⟨r, flowCtx st, pos, b, none⟩ = false := by
    intro h
    obtain ⟨d, r', rfl, hd⟩ := hcol h
    simp only [forbidden, List.mem_cons, List.not_mem_nil, or_false, not_or] at hd
    simp [blankOrFlowAhead, blankAhead, lookahead, raNext, blankOrEOF, isFlowIndicatorChar, hd]
  simp only [forbidden, indicators, List.mem_cons, List.not_mem_nil, or_false, not_or] at hc hi
  unfold flowMatching baseMatching
  split <;> simp_all

/-- What ends a word between brackets. -/
inductive HaltF : List Char → Prop
  | space {r : List Char} : HaltF (' ' :: r)
  | line {r : List Char} : HaltF ('\n' :: r)
  | cr {r : List Char} : HaltF ('\r' :: r)
  | comma {r : List Char} : HaltF (',' :: r)
  | seqEnd {r : List Char} : HaltF (']' :: r)
  | mapEnd {r : List Char} : HaltF ('}' :: r)
  | colon {r : List Char} : TurnF r → HaltF (':' :: r)

theorem HaltF.emits (h : HaltF text) : ∃ ty o cx' r', Emits (flowCtx st) .string text ty o cx' r' := by
  cases h with
  | space => exact ⟨_, _, _, _, emitsF_space⟩
  | line => exact ⟨_, _, _, _, emitsF_line⟩
  | @cr r => obtain ⟨o, r', h⟩ := emitsF_return (st := st) (b := .string) (r := r); exact ⟨_, _, _, _, h⟩
  | comma => exact ⟨_, _, _, _, emitsF_comma⟩
  | seqEnd => exact ⟨_, _, _, _, emitsF_seqEnd⟩
  | mapEnd => exact ⟨_, _, _, _, emitsF_mapEnd⟩
  | colon h => exact ⟨_, _, _, _, emitsF_colon h⟩

theorem runsF_word : ∀ {w : List Char}, (∀ c ∈ w, c ∉ forbidden) → w.getLast? ≠ some ':' → Runs (flowCtx st) w text
  | [], _, _ => trivial
  | c :: w, hw, hl => by
    refine ⟨passesF_mid (hw c (by simp)) ?_, runsF_word (fun d hd => hw d (by simp [hd])) ?_⟩
    · rintro rfl
      cases w with
      | nil => simp at hl
      | cons d w => exact ⟨d, _, rfl, hw d (by simp)⟩
    · cases w with
      | nil => simp
      | cons d w => simpa [List.getLast?_cons_cons] using hl

theorem FrontIn.wordF (h : FrontIn s ks .normal (flowCtx st) p b (w ++ text)) (hw : PlainTree.Word w)
    (hb : w.head? = some ':' → canBeAdjacent b = false) (hs : HaltF text) :
    (toks s p).type = .string ∧ (toks s p).origin = w ∧ FrontIn s ks .normal (flowCtx st) (p + 1) .string text := by
  obtain ⟨c, v, rfl, hi⟩ := hw.first
  obtain ⟨ty, o, cx', r', he⟩ := hs.emits (st := st)
  have hl := hw.last
  have hk := hw.mark
  refine h.chars (passesF_first (hw.chars c (by simp)) hi ?_ (fun hc => hb (by simp [hc])))
    (runsF_word (fun d hd => hw.chars d (by simp [hd])) ?_) he
  · intro hc
    cases v with
    | nil => rcases hc with rfl | rfl <;> simp [markers] at hk hl
    | cons d v => exact ⟨d, _, rfl, hw.chars d (by simp)⟩
  · cases v with
    | nil => simp
    | cons d w => simpa [List.getLast?_cons_cons] using hl

/-- What follows a node between brackets: spaces, and a bracket, a comma, a colon or the end of the line. -/
inductive ShutF : List Char → Prop
  | line {j : Nat} {r : List Char} : ShutF (sp j ++ '\n' :: r)
  | cr {j : Nat} {r : List Char} : ShutF (sp j ++ '\r' :: r)
  | comma {j : Nat} {r : List Char} : ShutF (sp j ++ ',' :: r)
  | seqEnd {j : Nat} {r : List Char} : ShutF (sp j ++ ']' :: r)
  | mapEnd {j : Nat} {r : List Char} : ShutF (sp j ++ '}' :: r)
  | colon {j : Nat} {r : List Char} : TurnF r → ShutF (sp j ++ ':' :: r)

/-- What follows an entry of a mapping between brackets: spaces, and the closing bracket, a comma or the end of the line. -/
inductive EndF : List Char → Prop
  | line {j : Nat} {r : List Char} : EndF (sp j ++ '\n' :: r)
  | cr {j : Nat} {r : List Char} : EndF (sp j ++ '\r' :: r)
  | comma {j : Nat} {r : List Char} : EndF (sp j ++ ',' :: r)
  | mapEnd {j : Nat} {r : List Char} : EndF (sp j ++ '}' :: r)

theorem EndF.shut (h : EndF text) : ShutF text := by
  cases h with
  | line => exact .line
  | cr => exact .cr
  | comma => exact .comma
  | mapEnd => exact .mapEnd

theorem EndF.turn (h : EndF text) : TurnF text := by
  have key : ∀ {j : Nat} {t : List Char}, TurnF t → TurnF (sp j ++ t) := by
    intro j t ht
    cases j with
    | zero => exact ht
    | succ j => exact .inl rfl
  cases h with
  | line => exact key (.inl rfl)
  | cr => exact key (.inl rfl)
  | comma => exact key (.inr ⟨_, _, rfl, rfl⟩)
  | mapEnd => exact key (.inr ⟨_, _, rfl, rfl⟩)

theorem haltF_sp (h : HaltF text) : HaltF (sp j ++ text) := by
  cases j with
  | zero => exact h
  | succ j => exact .space

theorem ShutF.halt (h : ShutF text) : HaltF text := by
  cases h with
  | line => exact haltF_sp .line
  | cr => exact haltF_sp .cr
  | comma => exact haltF_sp .comma
  | seqEnd => exact haltF_sp .seqEnd
  | mapEnd => exact haltF_sp .mapEnd
  | colon h => exact haltF_sp (.colon h)

theorem shutF_quote (h : ShutF text) : text.head? ≠ some (quoteChar d) := by
  have key : ∀ {j : Nat} {t : List Char}, t.head? ≠ some (quoteChar d) → (sp j ++ t).head? ≠ some (quoteChar d) := by
    intro j t ht
    cases j with
    | zero => exact ht
    | succ j => cases d <;> simp [sp, List.replicate_succ, quoteChar]
  cases h <;> exact key (by cases d <;> simp [quoteChar])

theorem FrontIn.type {ty : TokType} {o r' : List Char} {cx cx' : Ctx} (h : FrontIn s ks .normal cx p b text)
    (he : Emits cx b text ty o cx' r') : (toks s p).type = ty := by
  have h1 := lex_emits h.lx he
  rw [← toks_pos h.pos] at h1
  exact h1.1

theorem ShutF.stop (h : ShutF text) (hf : FrontIn s ks .normal (flowCtx st) p b text) :
    ∃ j, Sp (toks s) p j ∧ (toks s (p + j)).type ≠ .string := by
  have key : ∀ {j text ty o cx' r'}, FrontIn s ks .normal (flowCtx st) p b (sp j ++ text) →
      Emits (flowCtx st) (if j = 0 then b else .space) text ty o cx' r' → ty ≠ .space → ty ≠ .tab → ty ≠ .string →
      ∃ j, Sp (toks s) p j ∧ (toks s (p + j)).type ≠ .string := by
    intro j text ty o cx' r' h he h1 h2 h3
    obtain ⟨g1, g2⟩ := h.spacesF
    have g3 := g2.type he
    exact ⟨j, Sp.make g1 (by rw [g3]; exact h1) (by rw [g3]; exact h2), by rw [g3]; exact h3⟩
  cases h with
  | line => exact key hf emitsF_line (by simp) (by simp) (by simp)
  | @cr j r =>
    obtain ⟨o, r', he⟩ := emitsF_return (st := st) (b := if j = 0 then b else .space) (r := r)
    exact key hf he (by simp) (by simp) (by simp)
  | comma => exact key hf emitsF_comma (by simp) (by simp) (by simp)
  | seqEnd => exact key hf emitsF_seqEnd (by simp) (by simp) (by simp)
  | mapEnd => exact key hf emitsF_mapEnd (by simp) (by simp) (by simp)
  | colon h => exact key hf (emitsF_colon h) (by simp) (by simp) (by simp)

theorem FrontIn.phraseF (hs : ShutF text) (ht : Phrase t) : ∀ {p : Nat} {b : TokType}, (t.head? = some ':' → canBeAdjacent b = false) →
    FrontIn s ks .normal (flowCtx st) p b (t ++ text) → ∃ q, Word (toks s) p t q ∧ FrontIn s ks .normal (flowCtx st) q .string text := by
  induction ht with
  | @word w hw =>
    intro p b hb h
    have h1 := h.wordF hw hb hs.halt
    have h0 := safe_word h1.1 (by simpa [h1.2.1] using hw.chars)
    refine ⟨p + 1, ⟨h.pos, h1.1, h0, ?_, hs.stop h1.2.2⟩, h1.2.2⟩
    obtain ⟨j, g1, g2⟩ := hs.stop h1.2.2
    have := PlainRun.word (W := toks s) (ctx := .blockKey) (p := p) (j := 0) (fun i hi => by omega) h1.1 h1.2.2.calmly
      h0 (.stop g1 (isPlainSafeToken_string g2))
    simpa [h1.2.1] using this
  | @more w t j hw _ ih =>
    intro p b hb h
    have e : w ++ (List.replicate (j + 1) ' ' ++ t) ++ text = w ++ (sp (j + 1) ++ (t ++ text)) := by
      simp [sp]
    rw [e] at h
    have h1 := h.wordF hw (fun hc => hb (by obtain ⟨c, v, rfl, -⟩ := hw.first; simpa using hc)) .space
    have h2 := h1.2.2.spacesF
    simp only [Nat.add_eq_zero_iff, Nat.one_ne_zero, and_false, if_false] at h2
    obtain ⟨q, h3, h5⟩ := ih (fun _ => rfl) h2.2
    have h0 := safe_word h1.1 (by simpa [h1.2.1] using hw.chars)
    refine ⟨q, ⟨h.pos, h1.1, h0, ?_, h3.halt⟩, h5⟩
    have h6 : PlainRun (toks s) .blockKey (p + 1) (List.replicate (j + 1) ' ' ++ t) q :=
      PlainRun.spaces h3.run h3.str h3.safe h2.1
    have := PlainRun.word (W := toks s) (ctx := .blockKey) (p := p) (j := 0) (fun i hi => by omega) h1.1 h1.2.2.calmly
      h0 h6
    simpa [h1.2.1] using this

/-! ### Scalars -/

theorem FrontIn.scalarF (h : FrontIn s ks .normal (flowCtx st) p b (u ++ text)) (hu : BlockText.Scalar u e)
    (hb : mayPrecedeWordInFlow b = true ∨ b = .mappingValue) (hc : u.head? ≠ some ':') (ht : ShutF text) :
    ∃ q b', Scal (toks s) p e q ∧ FrontIn s ks .normal (flowCtx st) q b' text := by
  cases hu with
  | phrase hp =>
    obtain ⟨q, h1, h2⟩ := FrontIn.phraseF ht hp (fun h => absurd h hc) h
    exact ⟨q, _, .word h1, h2⟩
  | @single t hv =>
    obtain ⟨q, h1, h2⟩ := FrontIn.quoted (d := false) (t := t) (r := text) (by simpa [quoteChar] using h) (emitsF_quote hb) hv
      (shutF_quote ht)
    exact ⟨_, _, .quoted h1, h2⟩
  | @double t hv =>
    obtain ⟨q, h1, h2⟩ := FrontIn.quoted (d := true) (t := t) (r := text) (by simpa [quoteChar] using h) (emitsF_quote hb) hv
      (shutF_quote ht)
    exact ⟨_, _, .quoted h1, h2⟩

theorem FrontIn.atomF (h : FrontIn s ks .normal (flowCtx st) p b (u ++ text)) (hu : BlockText.Atom u e)
    (hb : mayPrecedeWordInFlow b = true) (hc : u.head? ≠ some ':') (ht : ShutF text) :
    ∃ q b', Atom (toks s) p e q ∧ FrontIn s ks .normal (flowCtx st) q b' text := by
  cases hu with
  | scalar hu =>
    obtain ⟨q, b', h1, h2⟩ := h.scalarF hu (.inl hb) hc ht
    exact ⟨q, b', .scal h1, h2⟩
  | @ref a ha =>
    obtain ⟨h1, -, h3⟩ := FrontIn.token h (emitsF_star (r := a ++ text) hb) (by simp [Plainly]) (by simp)
    obtain ⟨g1, g2, g3⟩ := h3.wordF (Name.word ha) (fun _ => rfl) ht.halt
    exact ⟨_, _, .ref ⟨h.pos, h1, name_anchor ha g1 g2, by rw [g2], ⟨h3.calmly, g3.calmly⟩, rfl⟩, g3⟩

/-! ### Collections -/

/-- The tokens of a part of a collection. -/
def Reads (s : Lexer) (o : Option Nat) : BlockText.Part → Nat → List Char → Node → Prop
  | .coll, n, u, e => ∀ {st ks p b text}, Opening st b → FrontIn s ks .normal (ctxOf st) p b (u ++ text) →
      ∃ q b', isOpen (toks s p) = true ∧ Fl (toks s) o .node (2 ^ n) p e q ∧ FrontIn s ks .normal (ctxOf st) q b' text
  | .node, n, u, e => ∀ {st ks p b text}, mayPrecedeWordInFlow b = true → ShutF text → FrontIn s ks .normal (flowCtx st) p b (u ++ text) →
      ∃ q b', Fl (toks s) o .node (2 ^ n) p e q ∧ FrontIn s ks .normal (flowCtx st) q b' text
  | .items, n, u, e => ∀ {st ks p b text}, mayPrecedeWordInFlow b = true →
      FrontIn s (.sequenceStart :: ks) .normal (flowCtx st) p b (u ++ ']' :: text) →
      ∃ q, Fl (toks s) o .items (2 ^ (n + 1)) p e q ∧ (toks s q).type = .sequenceEnd ∧ FrontIn s ks .normal (ctxOf st) (q + 1) .sequenceEnd text
  | .pair, n, u, e => ∀ {st ks p b text}, mayPrecedeWordInFlow b = true → EndF text → FrontIn s ks .normal (flowCtx st) p b (u ++ text) →
      ∃ q b', Fl (toks s) o .entry (2 ^ n) p e q ∧ FrontIn s ks .normal (flowCtx st) q b' text
  | .asked, n, u, e => ∀ {st ks p b text}, mayPrecedeWordInFlow b = true → EndF text → FrontIn s ks .normal (flowCtx st) p b (u ++ text) →
      ∃ q b', Fl (toks s) o .asked (2 ^ n) p e q ∧ FrontIn s ks .normal (flowCtx st) q b' text
  | .pairs, n, u, e => ∀ {st ks p b text}, mayPrecedeWordInFlow b = true →
      FrontIn s (.mappingStart :: ks) .normal (flowCtx st) p b (u ++ '}' :: text) →
      ∃ q, Fl (toks s) o .pairs (2 ^ n) p e q ∧ (toks s q).type = .mappingEnd ∧ FrontIn s ks .normal (ctxOf st) (q + 1) .mappingEnd text

theorem inFlow_space {j : Nat} (h : mayPrecedeWordInFlow b = true) : mayPrecedeWordInFlow (if j = 0 then b else .space) = true := by
  split
  · exact h
  · rfl

theorem begins_of {k : Tok} (h : k.type = .sequenceEnd ∨ k.type = .mappingEnd ∨ k.type = .collectEntry ∨ k.type = .mappingValue) : Begins k := by
  rcases h with h | h | h | h <;> simp [Begins, h]

theorem FrontIn.lineF (hu : BlockText.Break u r) (h : FrontIn s ks .normal (flowCtx st) p b (u ++ r)) :
    (toks s p).type = .lineBreak ∧ FrontIn s ks .normal (flowCtx st) (p + 1) .lineBreak r := by
  obtain ⟨o, he⟩ := emitsF_break (st := st) (b := b) hu
  obtain ⟨h1, -, h3⟩ := FrontIn.token h he (by simp [Plainly]) (by simp)
  exact ⟨h1, h3⟩

/-- Blank lines, from the start of a line on. -/
theorem FrontIn.blanksF {g : List Char} (hg : BlockText.Blanks g) (hr : (sp j ++ r).head? ≠ some '\n') : ∀ {p : Nat}, solW (toks s) p = true →
    FrontIn s ks .normal (flowCtx st) p .lineBreak (g ++ (sp j ++ r)) →
    ∃ q, FrontIn s ks .normal (flowCtx st) (q + j) (if j = 0 then .lineBreak else .space) r ∧ p ≤ q ∧ solW (toks s) q = true ∧
      (Begins (toks s (q + j)) → Sp (toks s) q j ∧ Gap (toks s) p q) := by
  induction hg with
  | nil =>
    intro p hs h
    obtain ⟨h1, h2⟩ := FrontIn.spacesF (by simpa using h)
    exact ⟨p, h2, Nat.le_refl _, hs, fun hb => ⟨Sp.make h1 hb.1 hb.2.1, .here (Sp.make h1 hb.1 hb.2.1) hb⟩⟩
  | @brk i a g ha _ ih =>
    intro p hs h
    obtain ⟨h1, h2⟩ := FrontIn.spacesF (j := i) (r := a ++ (g ++ (sp j ++ r))) (by simpa using h)
    obtain ⟨h3, h4⟩ := h2.lineF (break_append ha hr)
    obtain ⟨q, g1, g2, g3, g4⟩ := ih (solW_break h2.pos h3) h4
    exact ⟨q, g1, by omega, g3, fun hb => ⟨(g4 hb).1, .line (Sp.make h1 (by simp [h3]) (by simp [h3])) (.none (by simp [isBreakOrEOF, h3])) h3 (g4 hb).2⟩⟩

/-- Space between brackets. -/
theorem FrontIn.roomF {o : Option Nat} (hw : BlockText.Room o w) (hr : r.head? ≠ some '\n') (h : FrontIn s ks .normal (flowCtx st) p b (w ++ r)) :
    ∃ q b', FrontIn s ks .normal (flowCtx st) q b' r ∧ (mayPrecedeWordInFlow b = true → mayPrecedeWordInFlow b' = true) ∧
      (w ≠ [] → p < q ∧ mayPrecedeWordInFlow b' = true) ∧ (Begins (toks s q) → Room (toks s) o p q) := by
  cases hw with
  | @here _ j =>
    obtain ⟨h1, h2⟩ := h.spacesF
    refine ⟨_, _, h2, inFlow_space, fun hn => ?_, fun hb => .here (Sp.make h1 hb.1 hb.2.1) hb⟩
    cases j with
    | zero => simp [sp] at hn
    | succ j => exact ⟨by omega, rfl⟩
  | @brk m i j a g ha hg hm =>
    have hr' : (sp j ++ r).head? ≠ some '\n' := by
      cases j with
      | zero => exact hr
      | succ j => simp [sp, List.replicate_succ]
    obtain ⟨h1, h2⟩ := FrontIn.spacesF (j := i) (r := a ++ (g ++ (sp j ++ r))) (by simpa using h)
    obtain ⟨h3, h4⟩ := h2.lineF (by have := break_append ha hr; simpa using this)
    obtain ⟨q, g1, g2, g3, g4⟩ := h4.blanksF hg hr' (solW_break h2.pos h3)
    have hm' : mayPrecedeWordInFlow (if j = 0 then .lineBreak else .space) = true := by split <;> rfl
    refine ⟨_, _, g1, fun _ => hm', fun _ => ⟨by omega, hm'⟩, fun hb => .lines (.line (Sp.make h1 (by simp [h3]) (by simp [h3]))
      (.none (by simp [isBreakOrEOF, h3])) (.inr rfl) h3 (g4 hb).2) ⟨(g4 hb).1, hb, g3⟩ hm⟩

theorem room_shut {o : Option Nat} (hw : BlockText.Room o w) (h : ∀ j, ShutF (sp j ++ r)) : ShutF (w ++ r) := by
  cases hw with
  | here => exact h _
  | brk ha => rw [List.append_assoc, List.append_assoc]; cases ha <;> constructor

theorem room_end {o : Option Nat} (hw : BlockText.Room o w) (h : ∀ j, EndF (sp j ++ r)) : EndF (w ++ r) := by
  cases hw with
  | here => exact h _
  | brk ha => rw [List.append_assoc, List.append_assoc]; cases ha <;> constructor

theorem room_blank {o : Option Nat} (hw : BlockText.Room o w) (hn : w ≠ []) : blankOrEOF (w ++ r).head? = true := by
  cases hw with
  | @here _ j =>
    cases j with
    | zero => simp [sp] at hn
    | succ j => rfl
  | @brk m i j a g ha =>
    cases i with
    | zero => cases ha <;> rfl
    | succ i => rfl

theorem scalar_first (h : BlockText.Scalar u e) : ∃ c r, u = c :: r ∧ c ≠ '\n' := by
  have hw : ∀ {w : List Char}, PlainTree.Word w → ∃ c r, w = c :: r ∧ c ≠ '\n' := by
    intro w h
    obtain ⟨c, r, rfl, -⟩ := h.first
    exact ⟨c, r, rfl, fun e => h.chars c (by simp) (by simp [e, forbidden])⟩
  cases h with
  | phrase h =>
    cases h with
    | word h => exact hw h
    | more h => obtain ⟨c, r, rfl, hc⟩ := hw h; exact ⟨c, _, rfl, hc⟩
  | single => exact ⟨_, _, rfl, by decide⟩
  | double => exact ⟨_, _, rfl, by decide⟩

theorem atom_first (h : BlockText.Atom u e) : ∃ c r, u = c :: r ∧ c ≠ '\n' := by
  cases h with
  | scalar h => exact scalar_first h
  | ref => exact ⟨_, _, rfl, by decide⟩

theorem flow_first {o : Option Nat} {k : BlockText.Part} (h : BlockText.Flow o k n u e) : ∃ c r, u = c :: r ∧ c ≠ '\n' := by
  induction h with
  | atom h => exact atom_first h
  | coll _ ih => exact ih
  | noItems | seq | noPairs | map => exact ⟨_, _, rfl, by decide⟩
  | item _ _ ih | lastPair _ _ ih => obtain ⟨c, r, rfl, hc⟩ := ih; exact ⟨c, _, rfl, hc⟩
  | items _ _ _ _ ih | pairs _ _ _ _ ih => obtain ⟨c, r, rfl, hc⟩ := ih; exact ⟨c, _, rfl, hc⟩
  | itemComma _ _ _ ih | pairComma _ _ _ ih => obtain ⟨c, r, rfl, hc⟩ := ih; exact ⟨c, _, rfl, hc⟩
  | pair h => obtain ⟨c, r, rfl, hc⟩ := atom_first h; exact ⟨c, _, rfl, hc⟩
  | alone h => exact atom_first h
  | void h => obtain ⟨c, r, rfl, hc⟩ := atom_first h; exact ⟨c, _, rfl, hc⟩
  | plain _ ih => exact ih
  | asked => exact ⟨_, _, rfl, by decide⟩
  | tight h => obtain ⟨c, r, rfl, hc⟩ := scalar_first h; exact ⟨c, _, rfl, hc⟩

theorem flow_head {o : Option Nat} {k : BlockText.Part} (h : BlockText.Flow o k n u e) : (u ++ r).head? ≠ some '\n' := by
  obtain ⟨c, r, rfl, hc⟩ := flow_first h
  simpa using hc

theorem flow_reads {o : Option Nat} {k : BlockText.Part} (h : BlockText.Flow o k n u e) : Reads s o k n u e := by
  induction h with
  | atom ha hc =>
    intro st ks p b text hb ht h
    obtain ⟨q, b', h1, h2⟩ := h.atomF ha hb hc ht
    exact ⟨q, b', .atom h1, h2⟩
  | coll _ ih =>
    intro st ks p b text hb ht h
    obtain ⟨q, b', -, h1, h2⟩ := ih (.flow hb) h
    exact ⟨q, b', h1, h2⟩
  | @noItems n w hw =>
    intro st ks p b text hb h
    obtain ⟨h1, h2⟩ := h.opens (r' := w ++ ']' :: text) (by simpa using emits_seqStart hb) (.inl rfl)
    obtain ⟨q, b', g2, -, -, g1⟩ := h2.roomF hw (by simp)
    obtain ⟨k1, k2⟩ := g2.closes emitsF_seqEnd (.inl ⟨rfl, rfl⟩)
    refine ⟨_, _, by simp [isOpen, h1], .seqNil h.pos h1 h2.calmly (g1 (begins_of (.inl k1))) k1 k2.calmly ?_, k2⟩
    rw [Nat.pow_succ]
    have := Nat.one_le_two_pow (n := n)
    omega
  | @seq n w u es hw hf ih =>
    intro st ks p b text hb h
    obtain ⟨h1, h2⟩ := h.opens (r' := w ++ (u ++ ']' :: text)) (by simpa using emits_seqStart hb) (.inl rfl)
    obtain ⟨a, b', g2, g3, -, g1⟩ := h2.roomF hw (flow_head hf)
    obtain ⟨q, k1, k2, k3⟩ := ih (g3 rfl) g2
    have kb : Begins (toks s a) := k1.items_two.2.2
    exact ⟨_, _, by simp [isOpen, h1], .seq h.pos h1 h2.calmly (g1 kb) k1 k2 k3.calmly, k3⟩
  | @noPairs n w hw =>
    intro st ks p b text hb h
    obtain ⟨h1, h2⟩ := h.opens (r' := w ++ '}' :: text) (by simpa using emits_mapStart hb) (.inr rfl)
    obtain ⟨q, b', g2, -, -, g1⟩ := h2.roomF hw (by simp)
    obtain ⟨k1, k2⟩ := g2.closes emitsF_mapEnd (.inr ⟨rfl, rfl⟩)
    exact ⟨_, _, by simp [isOpen, h1], .mapNil h.pos h1 h2.calmly (g1 (begins_of (.inr (.inl k1)))) k1 k2.calmly Nat.one_le_two_pow, k2⟩
  | @map n w u es hw hf ih =>
    intro st ks p b text hb h
    obtain ⟨h1, h2⟩ := h.opens (r' := w ++ (u ++ '}' :: text)) (by simpa using emits_mapStart hb) (.inr rfl)
    obtain ⟨a, b', g2, g3, -, g1⟩ := h2.roomF hw (flow_head hf)
    obtain ⟨q, k1, k2, k3⟩ := ih (g3 rfl) g2
    have kb : Begins (toks s a) := k1.pairs_one.2.2
    exact ⟨_, _, by simp [isOpen, h1], .map h.pos h1 h2.calmly (g1 kb) k1 k2 k3.calmly, k3⟩
  | @item n u w e _ hw ih =>
    intro st ks p b text hb h
    obtain ⟨q, b', h1, h2⟩ := ih (text := w ++ ']' :: text) hb (room_shut hw fun _ => .seqEnd) (by simpa using h)
    obtain ⟨z, b'', g2, -, -, g1⟩ := h2.roomF hw (by simp)
    obtain ⟨k1, k2⟩ := g2.closes emitsF_seqEnd (.inl ⟨rfl, rfl⟩)
    have h2n := Nat.one_le_two_pow (n := n)
    exact ⟨z, .item h1 ⟨by rw [Nat.pow_succ]; omega, by rw [Nat.pow_succ]; omega⟩ (g1 (begins_of (.inl k1))) k1, k1, k2⟩
  | @itemComma n u w w' e _ hw hw' ih =>
    intro st ks p b text hb h
    obtain ⟨q, b', h1, h2⟩ := ih (text := w ++ ',' :: (w' ++ ']' :: text)) hb (room_shut hw fun _ => .comma) (by simpa using h)
    obtain ⟨z, b'', g2, -, -, g1⟩ := h2.roomF hw (by simp)
    obtain ⟨k1, -, k2⟩ := FrontIn.token g2 emitsF_comma (by simp [Plainly]) (by simp)
    obtain ⟨a, b3, m2, -, -, m1⟩ := k2.roomF hw' (by simp)
    obtain ⟨l1, l2⟩ := m2.closes emitsF_seqEnd (.inl ⟨rfl, rfl⟩)
    have h2n := Nat.one_le_two_pow (n := n)
    exact ⟨a, .itemComma h1 ⟨by rw [Nat.pow_succ]; omega, by rw [Nat.pow_succ]; omega⟩
      (g1 (begins_of (.inr (.inr (.inl k1))))) k1 k2.calmly (m1 (begins_of (.inl l1))) l1, l1, l2⟩
  | @items n u w w' v e es _ hw hw' hf ih ih' =>
    intro st ks p b text hb h
    obtain ⟨q, b', h1, h2⟩ := ih (text := w ++ ',' :: (w' ++ (v ++ ']' :: text))) hb (room_shut hw fun _ => .comma) (by simpa using h)
    obtain ⟨z, b'', g2, -, -, g1⟩ := h2.roomF hw (by simp)
    obtain ⟨k1, -, k2⟩ := FrontIn.token g2 emitsF_comma (by simp [Plainly]) (by simp)
    obtain ⟨a, b3, m2, m3, -, m1⟩ := k2.roomF hw' (flow_head hf)
    obtain ⟨r, l1, l2, l3⟩ := ih' (m3 rfl) m2
    have kb : Begins (toks s a) := l1.items_two.2.2
    have h2n := Nat.one_le_two_pow (n := n)
    exact ⟨r, .items h1 ⟨by rw [Nat.pow_succ]; omega, by rw [Nat.pow_succ]; omega⟩
      (g1 (begins_of (.inr (.inr (.inl k1))))) k1 k2.calmly (m1 kb) l1, l2, l3⟩
  | @pair n u w w' v x e ha hc hw hw' hn hf ih =>
    intro st ks p b text hb ht h
    obtain ⟨i, b', h1, h2⟩ := FrontIn.atomF (text := w ++ ':' :: (w' ++ (v ++ text))) (by simpa using h) ha hb hc
      (room_shut hw fun _ => .colon (.inl (room_blank hw' hn)))
    obtain ⟨z, b'', g2, -, -, g1⟩ := h2.roomF hw (by simp)
    obtain ⟨k1, -, k2⟩ := FrontIn.token g2 (emitsF_colon (.inl (room_blank hw' hn))) (by simp [Plainly]) (by simp)
    obtain ⟨a, b3, m2, -, m3, m1⟩ := k2.roomF hw' (flow_head hf)
    obtain ⟨q, b4, l1, l2⟩ := ih (m3 hn).2 ht.shut m2
    exact ⟨q, b4, .value h1 (g1 (begins_of (.inr (.inr (.inr k1))))) k1 k2.calmly (m1 l1.begins) (fun _ => (m3 hn).1) l1
      (Nat.le_refl _) Nat.one_le_two_pow, l2⟩
  | @alone n u x ha hc =>
    intro st ks p b text hb ht h
    obtain ⟨i, b', h1, h2⟩ := h.atomF ha hb hc ht.shut
    exact ⟨i, b', .alone h1 Nat.one_le_two_pow, h2⟩
  | @void n u w x ha hc hw =>
    intro st ks p b text hb ht h
    obtain ⟨i, b', h1, h2⟩ := FrontIn.atomF (text := w ++ ':' :: text) (by simpa using h) ha hb hc (room_shut hw fun _ => .colon ht.turn)
    obtain ⟨z, b'', g2, -, -, g1⟩ := h2.roomF hw (by simp)
    obtain ⟨k1, -, k2⟩ := FrontIn.token g2 (emitsF_colon ht.turn) (by simp [Plainly]) (by simp)
    exact ⟨_, _, .void h1 (g1 (begins_of (.inr (.inr (.inr k1))))) k1 k2.calmly Nat.one_le_two_pow, k2⟩
  | plain _ ih =>
    intro st ks p b text hb ht h
    obtain ⟨q, b', h1, h2⟩ := ih hb ht h
    exact ⟨q, b', .plain h1, h2⟩
  | @asked n j u e _ ih =>
    intro st ks p b text hb ht h
    rw [List.cons_append, List.append_assoc] at h
    obtain ⟨k1, -, k2⟩ := FrontIn.token h (emitsF_ask (by rfl) hb) (by simp [Plainly]) (by simp)
    obtain ⟨g1, g2⟩ := k2.spacesF
    obtain ⟨q, b', h1, h2⟩ := ih rfl ht g2
    obtain ⟨-, -, -, -, ty⟩ := h1.entry_facts
    refine ⟨q, b', .asked h.pos k1 k2.calmly (Sp.make g1 ?_ ?_) h1, h2⟩ <;> rcases ty with h | h | h | h <;> simp [h]
  | @tight n u v t k e hu hk hv hc =>
    intro st ks p b text hb ht h
    have key : ∃ q d, Quoted (toks s) d p t q ∧ k = quoteKind d ∧
        FrontIn s ks .normal (flowCtx st) (q + 1) (quoteTok d) (':' :: (v ++ text)) := by
      generalize hx : Node.text t k = x at hu
      cases hu with
      | phrase => injection hx with h1 h2; exact absurd h2 hk
      | @single t' hv' =>
        injection hx with h1 h2
        subst h1 h2
        obtain ⟨q, h1, h2⟩ := FrontIn.quoted (d := false) (t := t) (r := ':' :: (v ++ text)) (by simpa [quoteChar] using h)
          (emitsF_quote (.inl hb)) hv' (by simp [quoteChar])
        exact ⟨q, _, h1, rfl, h2⟩
      | @double t' hv' =>
        injection hx with h1 h2
        subst h1 h2
        obtain ⟨q, h1, h2⟩ := FrontIn.quoted (d := true) (t := t) (r := ':' :: (v ++ text)) (by simpa [quoteChar] using h)
          (emitsF_quote (.inl hb)) hv' (by simp [quoteChar])
        exact ⟨q, _, h1, rfl, h2⟩
    obtain ⟨q, d, h1, rfl, h2⟩ := key
    obtain ⟨k1, -, k2⟩ := FrontIn.token h2 emitsF_colonQ (by simp [Plainly]) (by simp)
    obtain ⟨r, b', l1, l2⟩ := k2.scalarF hv (.inr rfl) hc ht.shut
    have hl := (Fl.atom (o := o) (b := 2 ^ n) (Atom.scal l1)).begins
    refine ⟨r, b', .value (c := 2 ^ n) (i := q + 1) (s := q + 1) (a := q + 1 + 1) (.scal (.quoted h1))
      (.here (j := 0) ⟨fun i hi => by omega, by simp [k1], by simp [k1]⟩ (begins_of (.inr (.inr (.inr k1))))) k1 k2.calmly
      (.here (j := 0) ⟨fun i hi => by omega, hl.1, hl.2.1⟩ hl) ?_ (.atom (.scal l1)) (Nat.le_refl _) Nat.one_le_two_pow, l2⟩
    intro h
    rw [h1.first] at h
    cases d <;> simp [quoteTok] at h
  | @lastPair n u w e _ hw ih =>
    intro st ks p b text hb h
    obtain ⟨q, b', h1, h2⟩ := ih (text := w ++ '}' :: text) hb (room_end hw fun _ => .mapEnd) (by simpa using h)
    obtain ⟨z, b'', g2, -, -, g1⟩ := h2.roomF hw (by simp)
    obtain ⟨k1, k2⟩ := g2.closes emitsF_mapEnd (.inr ⟨rfl, rfl⟩)
    exact ⟨z, .pair h1 (g1 (begins_of (.inr (.inl k1)))) k1, k1, k2⟩
  | @pairComma n u w w' e _ hw hw' ih =>
    intro st ks p b text hb h
    obtain ⟨q, b', h1, h2⟩ := ih (text := w ++ ',' :: (w' ++ '}' :: text)) hb (room_end hw fun _ => .comma) (by simpa using h)
    obtain ⟨z, b'', g2, -, -, g1⟩ := h2.roomF hw (by simp)
    obtain ⟨k1, -, k2⟩ := FrontIn.token g2 emitsF_comma (by simp [Plainly]) (by simp)
    obtain ⟨a, b3, m2, -, -, m1⟩ := k2.roomF hw' (by simp)
    obtain ⟨l1, l2⟩ := m2.closes emitsF_mapEnd (.inr ⟨rfl, rfl⟩)
    exact ⟨a, .pairComma h1 (g1 (begins_of (.inr (.inr (.inl k1))))) k1 k2.calmly (m1 (begins_of (.inr (.inl l1)))) l1, l1, l2⟩
  | @pairs n u w w' v e es _ hw hw' hf ih ih' =>
    intro st ks p b text hb h
    obtain ⟨q, b', h1, h2⟩ := ih (text := w ++ ',' :: (w' ++ (v ++ '}' :: text))) hb (room_end hw fun _ => .comma) (by simpa using h)
    obtain ⟨z, b'', g2, -, -, g1⟩ := h2.roomF hw (by simp)
    obtain ⟨k1, -, k2⟩ := FrontIn.token g2 emitsF_comma (by simp [Plainly]) (by simp)
    obtain ⟨a, b3, m2, m3, -, m1⟩ := k2.roomF hw' (flow_head hf)
    obtain ⟨r, l1, l2, l3⟩ := ih' (m3 rfl) m2
    have kb : Begins (toks s a) := l1.pairs_one.2.2
    exact ⟨r, .pairs h1 (g1 (begins_of (.inr (.inr (.inl k1))))) k1 k2.calmly (m1 kb) l1, l2, l3⟩

/-- A collection in brackets, in a block. -/
theorem Front.coll {m : Nat} (h : Front s newCtx p b (u ++ text)) (hb : b.mayPrecedeWord = true) (hu : BlockText.Flow (some m) .coll 4 u e) :
    ∃ q b', Coll (toks s) m p e q ∧ Front s newCtx q b' text := by
  obtain ⟨q, b', h1, h2, h3⟩ := flow_reads hu (st := []) (.block hb) h.toFrontIn
  exact ⟨q, b', ⟨h1, h2⟩, ⟨h3⟩⟩

end Verif.Parser
