import Verif.Lemmas.ParserRunPlain

/-!
Exact executions of the productions for quoted scalars.
-/

set_option linter.unusedSimpArgs false
set_option linter.unusedSectionVars false

namespace Verif.Parser

open Verif.Token Verif.Lexer Verif.Ast Verif.Spec.Cursor

variable {σ α β : Type} [TokenStream σ] [StreamOk σ]
variable {W : Toks} {p q p' j n m f : Nat} {k l : Nat → Nat} {ctx : PCtx} {ind : Ind} {t : List Char} {d : Bool}
variable {cst : YamlChar.CharSet}

/-- The type of the quotes: double or single. -/
def quoteTok (d : Bool) : TokType := if d then .doubleQuote else .singleQuote

/-- The characters between them. -/
def quoteSet (d : Bool) : YamlChar.CharSet := if d then .doubleQuoted else .singleQuoted

/-- The quoting of the text. -/
def quoteKind (d : Bool) : Quoting := if d then .double else .single

/-- Tokens between quotes from token `p` to token `q`, which are the text `t`. -/
inductive QuoteRun (W : Toks) (cst : YamlChar.CharSet) : Nat → List Char → Nat → Prop
  | stop {p : Nat} : QuoteRun W cst p [] p
  | step {p : Nat} {t : List Char} {q : Nat} : (W p).type = .string ∨ (W p).type = .space → isQuotedText cst (W p) = true →
      Calm W p → QuoteRun W cst (p + 1) t q → QuoteRun W cst p ((W p).origin ++ t) q

theorem QuoteRun.le (h : QuoteRun W cst p t q) : p ≤ q := by
  induction h with
  | stop => exact Nat.le_refl _
  | step _ _ _ _ ih => omega

theorem QuoteRun.sol (h : QuoteRun W cst p t q) (hp : 1 ≤ p) (hs : solW W p = false) : solW W q = false := by
  induction h with
  | stop => exact hs
  | step h _ _ _ ih =>
    refine ih (by omega) ?_
    rcases h with h | h <;> exact solW_not hp (by simp [h]) (by simp [h])

theorem quote_ne {t : Tok} (h : t.type = quoteTok d) : t.type ≠ .space ∧ t.type ≠ .tab ∧ t.type ≠ .string ∧ t.type ≠ .lineBreak ∧
    t.type ≠ .bom ∧ t.type ≠ .eof := by
  cases d <;> simp [h, quoteTok]

theorem quote_free {t : Tok} (h : t.type = quoteTok d) : Free t := by
  cases d
  · exact .of (x := .singleQuote) h
  · exact .of (x := .doubleQuote) h

theorem isQuotedText_quote {t : Tok} (h : t.type = quoteTok d) : isQuotedText cst t = false := by
  have hn := quote_ne h
  simp [isQuotedText, stringIn, hn.2.2.1, isWhite_false hn.1 hn.2.1]

theorem ex_takeQuoted (hF : Flat W) (h : QuoteRun W cst p t q) (hq : isQuotedText cst (W q) = false) : ∀ {f : Nat} {b : Buf},
    Ex W p k (takeWhile f (isQuotedText cst) b : M σ Buf) q k (b ++ t) := by
  induction h with
  | stop =>
    intro f b
    rw [List.append_nil]
    refine Ex.loopStop ?_
    refine Ex.bind Ex.tok ?_
    rw [if_neg (by simp [hq])]
    exact Ex.pure
  | @step p t q ht h hc _ ih =>
    intro f b
    refine Ex.loopGo (p' := p + 1) (j := k) (y := b ++ (W p).origin) ?_ (fun f => ?_)
    · refine Ex.bind Ex.tok ?_
      rw [if_pos h]
      exact Ex.bind (Ex.next hF hc (by rcases ht with h | h <;> exact .of h)) Ex.pure
    · rw [← List.append_assoc]
      exact ih hq

theorem ex_takeWhite_quote (hF : Flat W) (hq : (W p).type = quoteTok d) {b : Buf} :
    Ex W p k (takeWhile f isWhite b : M σ Buf) p k b := by
  have hn := quote_ne hq
  have := ex_takeWhite (σ := σ) (k := k) (j := 0) (b := b) (f := f) hF (Sp.zero hn.1 hn.2.1) (fun i hi => by omega)
  simpa using this

theorem ex_flowFolded_quote (hq : (W p).type = quoteTok d) (hs : solW W p = false) (b : Buf) :
    Ex W p k (parseFlowFolded f ind b : M σ (Bool × Ind × Buf)) p k (false, ind, b) := by
  have hn := quote_ne hq
  unfold parseFlowFolded
  refine Ex.bind Ex.hasErrors ?_
  simp only [Bool.false_eq_true, if_false]
  refine Ex.bind (Ex.attemptF (ex_sepInLine_no (Sp.zero hn.1 hn.2.1) hs) rfl) ?_
  have h1 : Ex W.held p k (parseTrimmed f ind .flowIn b : M σ (Bool × Ind × Buf)) p k (false, ind, b) := by
    unfold parseTrimmed
    refine Ex.bind Ex.hasErrors ?_
    simp only [Bool.false_eq_true, if_false]
    refine Ex.bind Ex.tok ?_
    rw [if_pos hn.2.2.2.1]
    exact Ex.pure
  have h2 : Ex W p k (parseFoldedLineBreak f ind .flowIn b : M σ (Bool × Ind × Buf)) p k (false, ind, b) := by
    unfold parseFoldedLineBreak
    refine Ex.bind Ex.hasErrors ?_
    simp only [Bool.false_eq_true, if_false]
    refine Ex.bind (Ex.attemptF h1 rfl) ?_
    simp only [Bool.false_eq_true, if_false]
    refine Ex.bind ex_truncate_self (Ex.bind Ex.tok ?_)
    rw [if_pos hn.2.2.2.1]
    first | exact Ex.pure | exact Ex.bind ex_truncate_self Ex.pure
  refine Ex.bind h2 ?_
  simp only [Bool.not_false, if_true]
  first | exact Ex.pure | exact Ex.bind ex_truncate_self Ex.pure

/-- The production of the line break. -/
def quoteBreak (d : Bool) (f : Nat) : Ind → Buf → M σ (Bool × Ind × Buf) :=
  if d then parseDoubleBreak f else parseFlowFolded f

theorem ex_quoteBreak (hF : Flat W) (hq : (W p).type = quoteTok d) (hs : solW W p = false) (b : Buf) :
    Ex W p k (quoteBreak d f ind b : M σ (Bool × Ind × Buf)) p k (false, ind, b) := by
  cases d with
  | false => exact ex_flowFolded_quote hq hs b
  | true =>
    have hn := quote_ne hq
    show Ex W p k (parseDoubleBreak f ind b : M σ (Bool × Ind × Buf)) p k (false, ind, b)
    unfold parseDoubleBreak
    refine Ex.bind Ex.hasErrors ?_
    simp only [Bool.false_eq_true, if_false]
    have h1 : Ex W p k (parseDoubleEscaped f ind b : M σ (Bool × Ind × Buf)) p k (false, ind, b) := by
      unfold parseDoubleEscaped
      refine Ex.bind Ex.hasErrors ?_
      simp only [Bool.false_eq_true, if_false]
      refine Ex.bind (ex_takeWhite_quote hF hq) (Ex.bind Ex.tok ?_)
      rw [if_pos (by simp [hn.2.2.1])]
      exact Ex.bind ex_truncate_self Ex.pure
    refine Ex.bind (Ex.attemptN h1 (.inr (quote_free hq).1) rfl) ?_
    simp only [Bool.false_eq_true, if_false]
    exact Ex.bind ex_truncate_self (ex_flowFolded_quote hq hs b)

theorem ex_quotedNextLine (hF : Flat W) (hq : (W p).type = quoteTok d) (hs : solW W p = false) (b : Buf) :
    Ex W p k (parseQuotedNextLine f cst (quoteBreak d f) n ind b : M σ (Bool × Ind × Buf)) p k (false, ind, b) := by
  cases n with
  | zero => exact Ex.outOfFuel
  | succ n =>
    unfold parseQuotedNextLine
    refine Ex.bind Ex.hasErrors ?_
    simp only [Bool.false_eq_true, if_false]
    refine Ex.bind (ex_quoteBreak hF hq hs b) ?_
    simp only [Bool.not_false, if_true]
    exact Ex.bind ex_truncate_self Ex.pure

/-- A text in quotes, from the first quote on token `p` to the last on token `q`. -/
structure Quoted (W : Toks) (d : Bool) (p : Nat) (t : List Char) (q : Nat) : Prop where
  pos : 1 ≤ p
  first : (W p).type = quoteTok d
  run : QuoteRun W (quoteSet d) (p + 1) t q
  last : (W q).type = quoteTok d
  calm : Calm W p ∧ Calm W q

theorem Quoted.sol (h : Quoted W d p t q) : solW W q = false := by
  have hn := quote_ne h.first
  exact h.run.sol (by omega) (solW_not h.pos hn.2.2.2.1 hn.2.2.2.2.1)

theorem Quoted.lt (h : Quoted W d p t q) : p < q := h.run.le

theorem ex_quoted (hF : Flat W) (h : Quoted W d p t q) (hx : Flowy ctx) :
    Ex W p k (parseQuoted f (quoteTok d) (quoteSet d) (quoteBreak d f) (quoteKind d) ind ctx : M σ (Node × Ind)) (q + 1) k
      (.text t (quoteKind d), ind) := by
  unfold parseQuoted
  refine Ex.bind Ex.hasErrors ?_
  simp only [Bool.false_eq_true, if_false]
  refine Ex.bind Ex.tok ?_
  rw [if_neg (by simp [h.first])]
  refine Ex.bind (Ex.next hF h.calm.1 (quote_free h.first)) ?_
  have h1 : Ex W (p + 1) k (parseQuotedText f (quoteSet d) (quoteBreak d f) (quoteKind d) ind ctx : M σ (Node × Ind)) q k
      (.text t (quoteKind d), ind) := by
    have multi : Ex W (p + 1) k (parseQuotedMultiLine f (quoteSet d) (quoteBreak d f) (quoteKind d) ind : M σ (Node × Ind)) q k
        (.text t (quoteKind d), ind) := by
      show Ex W (p + 1) k (parseQuotedMultiLine f (quoteSet d) (quoteBreak d f) (quoteKind d) ind : M σ (Node × Ind)) q k _
      unfold parseQuotedMultiLine
      refine Ex.bind Ex.hasErrors ?_
      simp only [Bool.false_eq_true, if_false]
      refine Ex.bind Ex.getBuf ?_
      refine Ex.bind (ex_takeQuoted hF h.run (isQuotedText_quote h.last)) ?_
      simp only [List.nil_append]
      refine Ex.bind (Ex.attemptN (ex_quotedNextLine hF h.last h.sol t) (.inr (quote_free h.last).1) rfl) ?_
      simp only [Bool.false_eq_true, if_false]
      refine Ex.bind ex_truncate_self ?_
      refine Ex.bind (ex_takeWhite_quote hF h.last) ?_
      exact Ex.bind Ex.resetAndPut Ex.pure
    have one : Ex W (p + 1) k (parseQuotedOneLine f (quoteSet d) (quoteKind d) >>= fun n => pure (n, ind) : M σ (Node × Ind)) q k
        (.text t (quoteKind d), ind) := by
      show Ex W (p + 1) k (parseQuotedOneLine f (quoteSet d) (quoteKind d) >>= fun n => pure (n, ind) : M σ (Node × Ind)) q k _
      refine Ex.bind (p' := q) (j := k) (a := .text t (quoteKind d)) ?_ Ex.pure
      unfold parseQuotedOneLine
      refine Ex.bind Ex.hasErrors ?_
      simp only [Bool.false_eq_true, if_false]
      refine Ex.bind Ex.getBuf ?_
      refine Ex.bind (ex_takeQuoted hF h.run (isQuotedText_quote h.last)) ?_
      simp only [List.nil_append]
      exact Ex.bind Ex.resetAndPut Ex.pure
    rcases hx with rfl | rfl | rfl | rfl
    · exact multi
    · exact one
    · exact multi
    · exact one
  refine Ex.bind h1 ?_
  rw [if_neg (by simp [okNode, validNode])]
  refine Ex.bind Ex.tok ?_
  rw [if_neg (by simp [h.last])]
  exact Ex.bind (Ex.next hF h.calm.2 (quote_free h.last)) Ex.pure

/-! ### Several lines -/

/-- The lines of a text in quotes after its first one, from the end of that at token `p` up to the closing quote at token `q`;
they start at column `n` or behind it. -/
inductive Verse (W : Toks) (d : Bool) (n : Nat) : Nat → List Char → Nat → Prop
  | stop {p : Nat} : (W p).type = quoteTok d → Verse W d n p [] p
  | close {p q j : Nat} {x : List (List Char)} : (W p).type = .lineBreak → Blanks W (p + 1) x q → Sp W q j → n ≤ j →
      (W (q + j)).type = quoteTok d → Verse W d n p (joint x) (q + j)
  | line {p q j r s : Nat} {x : List (List Char)} {t u : List Char} : (W p).type = .lineBreak → Blanks W (p + 1) x q → Sp W q j → n ≤ j →
      (W (q + j)).type = .string → QuoteRun W (quoteSet d) (q + j) t r → Verse W d n r u s → Verse W d n p (joint x ++ t ++ u) s

theorem Verse.le {u : List Char} (h : Verse W d n p u q) : p ≤ q := by
  induction h with
  | stop => exact Nat.le_refl _
  | close _ h =>
    have := h.le
    omega
  | line _ h _ _ _ h2 _ ih =>
    have := h.le
    have := h2.le
    omega

theorem Verse.last {u : List Char} (h : Verse W d n p u q) : (W q).type = quoteTok d := by
  induction h with
  | stop h => exact h
  | close _ _ _ _ h => exact h
  | line _ _ _ _ _ _ _ ih => exact ih

theorem Verse.first {u : List Char} (h : Verse W d n p u q) : isQuotedText cst (W p) = false := by
  have brk : ∀ {t : Tok}, t.type = .lineBreak → isQuotedText cst t = false := by
    intro t h
    simp [isQuotedText, stringIn, h, isWhite_false (t := t) (by simp [h]) (by simp [h])]
  cases h with
  | stop h => exact isQuotedText_quote h
  | close h => exact brk h
  | line h => exact brk h

theorem Verse.free {u : List Char} (h : Verse W d n p u q) : Free (W p) := by
  cases h with
  | stop h => exact quote_free h
  | close h => exact .of h
  | line h => exact .of h

/-- The line break before the next line. -/
theorem ex_quoteBreak_go (hF : Flat W) {x : List (List Char)} (h1 : (W p).type = .lineBreak) (h2 : Blanks W (p + 1) x q) (h3 : Sp W q j)
    (h4 : n ≤ j) (h5 : (W (q + j)).type ≠ .lineBreak) (hs : solW W p = false) (b : Buf) :
    Ex W p k (quoteBreak d f ⟨(n : Int), .strict⟩ b : M σ (Bool × Ind × Buf)) (q + j) k (true, ⟨(n : Int), .strict⟩, b ++ joint x) := by
  have hw : Sp W p 0 := .zero (by simp [h1]) (by simp [h1])
  have folded : Ex W p k (parseFlowFolded f ⟨(n : Int), .strict⟩ b : M σ (Bool × Ind × Buf)) (q + j) k
      (true, ⟨(n : Int), .strict⟩, b ++ joint x) := by
    unfold parseFlowFolded
    refine Ex.bind Ex.hasErrors ?_
    simp only [Bool.false_eq_true, if_false]
    refine Ex.bind (Ex.attemptF (ex_sepInLine_no hw hs) rfl) ?_
    refine Ex.bind (ex_foldedBreak (n := n) hF h1 h2 h3 h5 b f) ?_
    simp only [Bool.not_true, Bool.false_eq_true, if_false]
    refine Ex.bind (ex_flowLinePrefix hF h3 h4) ?_
    simp only [Bool.not_true, Bool.false_eq_true, if_false]
    exact Ex.pure
  cases d with
  | false => exact folded
  | true =>
    show Ex W p k (parseDoubleBreak f ⟨(n : Int), .strict⟩ b : M σ (Bool × Ind × Buf)) (q + j) k _
    unfold parseDoubleBreak
    refine Ex.bind Ex.hasErrors ?_
    simp only [Bool.false_eq_true, if_false]
    have h6 : Ex W p k (parseDoubleEscaped f ⟨(n : Int), .strict⟩ b : M σ (Bool × Ind × Buf)) p k (false, ⟨(n : Int), .strict⟩, b) := by
      unfold parseDoubleEscaped
      refine Ex.bind Ex.hasErrors ?_
      simp only [Bool.false_eq_true, if_false]
      have := ex_takeWhite (σ := σ) (k := k) (j := 0) (b := b) (f := f) hF hw (fun i hi => by omega)
      simp only [Nat.add_zero, List.replicate_zero, List.append_nil] at this
      refine Ex.bind this (Ex.bind Ex.tok ?_)
      rw [if_pos (by simp [h1])]
      exact Ex.bind ex_truncate_self Ex.pure
    refine Ex.bind (Ex.attemptN h6 (.inr (Free.of h1).1) rfl) ?_
    simp only [Bool.false_eq_true, if_false]
    exact Ex.bind ex_truncate_self folded

/-- The lines after the first one, if there are any. -/
theorem ex_verse (hF : Flat W) {u : List Char} (h : Verse W d n p u q) : 1 ≤ p → solW W p = false →
    (p = q ∧ u = [] ∧ (W p).type = quoteTok d) ∨ ∀ (m : Nat) (b : Buf),
      Ex W p k (parseQuotedNextLine f (quoteSet d) (quoteBreak d f) m ⟨(n : Int), .strict⟩ b : M σ (Bool × Ind × Buf)) q k
        (true, ⟨(n : Int), .strict⟩, b ++ u) := by
  induction h with
  | stop h => exact fun _ _ => .inl ⟨rfl, rfl, h⟩
  | @close p q j x h1 h2 h3 h4 h5 =>
    refine fun _ hs => .inr fun m b => ?_
    have hn := quote_ne h5
    cases m with
    | zero => exact Ex.outOfFuel
    | succ m =>
      unfold parseQuotedNextLine
      refine Ex.bind Ex.hasErrors ?_
      simp only [Bool.false_eq_true, if_false]
      refine Ex.bind (ex_quoteBreak_go hF h1 h2 h3 h4 hn.2.2.2.1 hs b) ?_
      simp only [Bool.not_true, Bool.false_eq_true, if_false]
      refine ExS.ex ?_
      refine ExS.bind (ExS.setCheckpoint (.inr (quote_free h5).1)) ?_
      refine ExS.bind (Ex.s Ex.tok) ?_
      rw [if_pos (by simp [stringIn, hn.2.2.1])]
      exact ExS.bind ExS.rollback (Ex.s Ex.pure)
  | @line p q j r s x t u h1 h2 h3 h4 h5 h6 h7 ih =>
    refine fun hp hs => .inr fun m b => ?_
    have hle := h2.le
    cases m with
    | zero => exact Ex.outOfFuel
    | succ m =>
      unfold parseQuotedNextLine
      refine Ex.bind Ex.hasErrors ?_
      simp only [Bool.false_eq_true, if_false]
      refine Ex.bind (ex_quoteBreak_go hF h1 h2 h3 h4 (by simp [h5]) hs b) ?_
      simp only [Bool.not_true, Bool.false_eq_true, if_false]
      cases h6 with
      | stop =>
        have := h7.first (cst := quoteSet d)
        cases h7 with
        | stop h => exact absurd h5 (quote_ne h).2.2.1
        | close h => simp [h5] at h
        | line h => simp [h5] at h
      | @step _ t _ g1 g2 g3 g4 =>
        have hin : stringIn (quoteSet d) (W (q + j)) = true := by
          simpa [isQuotedText, isWhite_false (t := W (q + j)) (by simp [h5]) (by simp [h5])] using g2
        have hsol : solW W r = false := g4.sol (by omega) (solW_not (by omega) (by simp [h5]) (by simp [h5]))
        have hle2 := g4.le
        refine ExS.ex ?_
        refine ExS.bind (ExS.setCheckpoint (.inr (Free.of h5).1)) ?_
        refine ExS.bind (Ex.s Ex.tok) ?_
        rw [if_neg (by simp [hin])]
        refine ExS.bind ExS.commit (Ex.s ?_)
        refine Ex.bind (Ex.next hF g3 (.of h5)) ?_
        refine Ex.bind (ex_takeQuoted hF g4 h7.first) ?_
        rcases ih (by omega) hsol with ⟨rfl, rfl, hq⟩ | ih
        · refine Ex.bind (Ex.attemptN (ex_quotedNextLine hF hq hsol _) (.inr (quote_free hq).1) rfl) ?_
          simp only [Bool.false_eq_true, if_false]
          refine Ex.bind ex_truncate_self ?_
          refine Ex.bind (ex_takeWhite_quote hF hq) ?_
          rw [show b ++ (joint x ++ ((W (q + j)).origin ++ t) ++ []) = b ++ joint x ++ (W (q + j)).origin ++ t from by simp]
          exact Ex.pure
        · refine Ex.bind (Ex.attemptT (ih _ _) rfl) ?_
          simp only [if_true]
          rw [show b ++ (joint x ++ ((W (q + j)).origin ++ t) ++ u) = b ++ joint x ++ (W (q + j)).origin ++ t ++ u from by simp]
          exact Ex.pure

/-- A text in quotes on one or more lines, from the first quote on token `p` to the last on token `q`. -/
inductive Scroll (W : Toks) (d : Bool) (n : Nat) : Nat → List Char → Nat → Prop
  | mk {p r q : Nat} {t u : List Char} : 1 ≤ p → (W p).type = quoteTok d → QuoteRun W (quoteSet d) (p + 1) t r → Verse W d n r u q →
      Calm W p → Calm W q → Scroll W d n p (t ++ u) q

theorem Scroll.lt (h : Scroll W d n p t q) : p < q := by
  cases h with
  | mk _ _ h1 h2 =>
    have := h1.le
    have := h2.le
    omega

theorem Scroll.first (h : Scroll W d n p t q) : (W p).type = quoteTok d := by
  cases h with
  | mk _ h => exact h

theorem ex_scroll (hF : Flat W) (h : Scroll W d n p t q) :
    Ex W p k (parseQuoted f (quoteTok d) (quoteSet d) (quoteBreak d f) (quoteKind d) ⟨(n : Int), .strict⟩ .flowOut : M σ (Node × Ind))
      (q + 1) k (.text t (quoteKind d), ⟨(n : Int), .strict⟩) := by
  cases h with
  | @mk r _ t u h1 h2 h3 h4 h5 h6 =>
  have hn := quote_ne h2
  have hle := h3.le
  have hsol : solW W r = false := h3.sol (by omega) (solW_not h1 hn.2.2.2.1 hn.2.2.2.2.1)
  unfold parseQuoted
  refine Ex.bind Ex.hasErrors ?_
  simp only [Bool.false_eq_true, if_false]
  refine Ex.bind Ex.tok ?_
  rw [if_neg (by simp [h2])]
  refine Ex.bind (Ex.next hF h5 (quote_free h2)) ?_
  have multi : Ex W (p + 1) k (parseQuotedMultiLine f (quoteSet d) (quoteBreak d f) (quoteKind d) ⟨(n : Int), .strict⟩ : M σ (Node × Ind)) q k
      (.text (t ++ u) (quoteKind d), ⟨(n : Int), .strict⟩) := by
    unfold parseQuotedMultiLine
    refine Ex.bind Ex.hasErrors ?_
    simp only [Bool.false_eq_true, if_false]
    refine Ex.bind Ex.getBuf ?_
    refine Ex.bind (ex_takeQuoted hF h3 h4.first) ?_
    simp only [List.nil_append]
    rcases ex_verse (σ := σ) (k := k) (f := f) hF h4 (by omega) hsol with ⟨rfl, rfl, hq⟩ | g
    · refine Ex.bind (Ex.attemptN (ex_quotedNextLine hF hq hsol t) (.inr (quote_free hq).1) rfl) ?_
      simp only [Bool.false_eq_true, if_false, List.append_nil]
      refine Ex.bind ex_truncate_self ?_
      refine Ex.bind (ex_takeWhite_quote hF hq) ?_
      exact Ex.bind Ex.resetAndPut Ex.pure
    · refine Ex.bind (Ex.attemptT (g f t) rfl) ?_
      simp only [if_true]
      exact Ex.bind Ex.resetAndPut Ex.pure
  refine Ex.bind (show Ex W (p + 1) k (parseQuotedText f (quoteSet d) (quoteBreak d f) (quoteKind d) ⟨(n : Int), .strict⟩ .flowOut :
    M σ (Node × Ind)) q k _ from multi) ?_
  rw [if_neg (by simp [okNode, validNode])]
  refine Ex.bind Ex.tok ?_
  rw [if_neg (by simp [h4.last])]
  exact Ex.bind (Ex.next hF h6 (quote_free h4.last)) Ex.pure

/-- The first line of a text in quotes which goes on in the next one. -/
structure Cut (W : Toks) (d : Bool) (p q : Nat) : Prop where
  pos : 1 ≤ p
  first : (W p).type = quoteTok d
  run : ∃ t, QuoteRun W (quoteSet d) (p + 1) t q
  last : (W q).type = .lineBreak
  calm : Calm W p

theorem Cut.lt (h : Cut W d p q) : p < q := by
  obtain ⟨t, ht⟩ := h.run
  exact ht.le

theorem Scroll.cases' (h : Scroll W d n p t q) : Quoted W d p t q ∨ ∃ r, Cut W d p r ∧ r < q := by
  cases h with
  | mk h1 h2 h3 h4 h5 h6 =>
    cases h4 with
    | stop h => exact .inl ⟨h1, h2, by simpa using h3, h, h5, h6⟩
    | close g1 g2 g3 g4 g5 =>
      have := g2.le
      exact .inr ⟨_, ⟨h1, h2, ⟨_, h3⟩, g1, h5⟩, by omega⟩
    | line g1 g2 g3 g4 g5 g6 g7 =>
      have := g2.le
      have := g6.le
      have := g7.le
      exact .inr ⟨_, ⟨h1, h2, ⟨_, h3⟩, g1, h5⟩, by omega⟩

/-- It is no key. -/
theorem ex_cut (hF : Flat W) (h : Cut W d p q) :
    Ex W p k (parseQuoted f (quoteTok d) (quoteSet d) (quoteBreak d f) (quoteKind d) ind .blockKey : M σ (Node × Ind)) q k (.invalid, ind) := by
  obtain ⟨t, ht⟩ := h.run
  have hq : isQuotedText (quoteSet d) (W q) = false := by
    simp [isQuotedText, stringIn, h.last, isWhite_false (t := W q) (by simp [h.last]) (by simp [h.last])]
  unfold parseQuoted
  refine Ex.bind Ex.hasErrors ?_
  simp only [Bool.false_eq_true, if_false]
  refine Ex.bind Ex.tok ?_
  rw [if_neg (by simp [h.first])]
  refine Ex.bind (Ex.next hF h.calm (quote_free h.first)) ?_
  have one : Ex W (p + 1) k (parseQuotedText f (quoteSet d) (quoteBreak d f) (quoteKind d) ind .blockKey : M σ (Node × Ind)) q k
      (.text t (quoteKind d), ind) := by
    show Ex W (p + 1) k (parseQuotedOneLine f (quoteSet d) (quoteKind d) >>= fun n => pure (n, ind) : M σ (Node × Ind)) q k _
    refine Ex.bind (p' := q) (j := k) (a := .text t (quoteKind d)) ?_ Ex.pure
    unfold parseQuotedOneLine
    refine Ex.bind Ex.hasErrors ?_
    simp only [Bool.false_eq_true, if_false]
    refine Ex.bind Ex.getBuf ?_
    refine Ex.bind (ex_takeQuoted hF ht hq) ?_
    simp only [List.nil_append]
    exact Ex.bind Ex.resetAndPut Ex.pure
  refine Ex.bind one ?_
  rw [if_neg (by simp [okNode, validNode])]
  refine Ex.bind Ex.tok ?_
  rw [if_pos (by cases d <;> simp [h.last, quoteTok])]
  exact Ex.pure

end Verif.Parser
