import Verif.Lemmas.ParserExec

/-!
Exact executions of the elementary productions of the parser on lines of spaces, words, dashes and colons.
-/

set_option linter.unusedSimpArgs false
set_option linter.unusedSectionVars false

namespace Verif.Parser

open Verif.Token Verif.Lexer Verif.Ast Verif.Spec.Cursor

variable {σ α β : Type} [TokenStream σ] [StreamOk σ]
variable {W : Toks} {p q p' j n m f : Nat} {k l : Nat → Nat}

/-- `j` spaces at token `p`, and then something else. -/
def Sp (W : Toks) (p j : Nat) : Prop :=
  (∀ i, i < j → (W (p + i)).type = .space ∧ Calm W (p + i)) ∧ (W (p + j)).type ≠ .space ∧ (W (p + j)).type ≠ .tab

/-- The token is the start of something in a line: no white space, no end of the line, no comment. -/
def Begins (t : Tok) : Prop :=
  t.type ≠ .space ∧ t.type ≠ .tab ∧ t.type ≠ .lineBreak ∧ t.type ≠ .eof ∧ t.type ≠ .comment ∧ t.type ≠ .bom

/-- The rest of a line without content from token `p` on: a comment or nothing.  Token `c` ends the line. -/
inductive Tail (W : Toks) : Nat → Nat → Prop
  | none {p : Nat} : isBreakOrEOF (W p) = true → Tail W p p
  | text {p c : Nat} : (W p).type = .comment → Calm W p → p < c →
      (∀ i, p < i → i < c → isNonBreak (W i) = true ∧ Calm W i ∧ Free (W i)) → isBreakOrEOF (W c) = true → Tail W p c

/-- From the start of a line on token `p`: lines without content up to the start of the next line with content on token
`q`, or past the end of the text. -/
inductive Gap (W : Toks) : Nat → Nat → Prop
  | here {p j : Nat} : Sp W p j → Begins (W (p + j)) → Gap W p p
  | line {p j c q : Nat} : Sp W p j → Tail W (p + j) c → (W c).type = .lineBreak → Gap W (c + 1) q → Gap W p q
  | last {p j c : Nat} : Sp W p j → Tail W (p + j) c → (W c).type = .eof → (W (c + 1)).type = .eof → Gap W p (c + 1)

/-- The end of a line with content, on token `p`, and the lines without content after it. -/
inductive Eol (W : Toks) : Nat → Nat → Prop
  | line {p j c q : Nat} : Sp W p j → Tail W (p + j) c → 0 < j ∨ c = p + j → (W c).type = .lineBreak → Gap W (c + 1) q →
      Eol W p q
  | last {p j c : Nat} : Sp W p j → Tail W (p + j) c → 0 < j ∨ c = p + j → (W c).type = .eof → (W (c + 1)).type = .eof →
      Eol W p (c + 1)

/-- A line with content starts on token `q`, which has `j` spaces in front. -/
structure Line (W : Toks) (q j : Nat) : Prop where
  sp : Sp W q j
  begins : Begins (W (q + j))
  sol : solW W q = true

/-- The parser has stepped over the end. -/
structure Done (W : Toks) (q : Nat) : Prop where
  eof : (W q).type = .eof
  sol : solW W q = false

theorem Sp.zero (h1 : (W p).type ≠ .space) (h2 : (W p).type ≠ .tab) : Sp W p 0 := ⟨fun i hi => by omega, h1, h2⟩

theorem Sp.succ (h1 : (W p).type = .space ∧ Calm W p) (h2 : Sp W (p + 1) j) : Sp W p (j + 1) := by
  refine ⟨fun i hi => ?_, ?_, ?_⟩
  · cases i with
    | zero => exact h1
    | succ i =>
      have := h2.1 i (by omega)
      rw [show p + (i + 1) = p + 1 + i from by omega]
      exact this
  · rw [show p + (j + 1) = p + 1 + j from by omega]; exact h2.2.1
  · rw [show p + (j + 1) = p + 1 + j from by omega]; exact h2.2.2

theorem Sp.ns (h : Sp W p 0) : (W p).type ≠ .space := h.2.1

theorem Sp.nt (h : Sp W p 0) : (W p).type ≠ .tab := h.2.2

theorem Sp.head (h : Sp W p (j + 1)) : (W p).type = .space := (h.1 0 (by omega)).1

theorem Sp.calm (h : Sp W p (j + 1)) : Calm W p := (h.1 0 (by omega)).2

theorem Sp.tail (h : Sp W p (j + 1)) : Sp W (p + 1) j := by
  refine ⟨fun i hi => ?_, ?_, ?_⟩
  · have := h.1 (i + 1) (by omega)
    rw [show p + 1 + i = p + (i + 1) from by omega]; exact this
  · rw [show p + 1 + j = p + (j + 1) from by omega]; exact h.2.1
  · rw [show p + 1 + j = p + (j + 1) from by omega]; exact h.2.2

theorem Sp.drop {i : Nat} (h : Sp W p (i + j)) : Sp W (p + i) j := by
  induction i generalizing p with
  | zero => simpa using h
  | succ i ih =>
    have := ih (p := p + 1) (Sp.tail (by rw [show i + j + 1 = i + 1 + j from by omega]; exact h))
    rw [show p + (i + 1) = p + 1 + i from by omega]; exact this

theorem isWhite_of_space {t : Tok} (h : t.type = .space) : isWhite t = true := by simp [isWhite, h, TokType.isWhiteSpace]

theorem isWhite_false {t : Tok} (h1 : t.type ≠ .space) (h2 : t.type ≠ .tab) : isWhite t = false := by
  unfold isWhite
  cases h : t.type <;> first | rfl | contradiction

theorem Ex.cast {m : M σ α} {a : α} {q' : Nat} (h : Ex W p k m q l a) (e : q = q') : Ex W p k m q' l a := e ▸ h

theorem Sp.unique {i : Nat} (h : Sp W p i) (h' : Sp W p j) : i = j := by
  rcases Nat.lt_trichotomy i j with hl | rfl | hl
  · exact absurd (h'.1 i hl).1 h.2.1
  · rfl
  · exact absurd (h.1 j hl).1 h'.2.1

theorem Begins.sp (h : Begins (W p)) : Sp W p 0 := Sp.zero h.1 h.2.1

theorem Sp.eof (h : (W q).type = .eof) : Sp W q 0 := Sp.zero (by simp [h]) (by simp [h])

theorem Done.sp (h : Done W q) : Sp W q 0 := Sp.zero (by simp [h.eof]) (by simp [h.eof])

theorem isBreakOrEOF_iff {t : Tok} : isBreakOrEOF t = true ↔ t.type = .lineBreak ∨ t.type = .eof := by
  simp [isBreakOrEOF]

theorem Tail.le {c : Nat} (h : Tail W p c) : p ≤ c := by
  cases h with
  | none => exact Nat.le_refl _
  | text _ _ h => omega

theorem Tail.brk {c : Nat} (h : Tail W p c) : isBreakOrEOF (W c) = true := by
  cases h with
  | none h => exact h
  | text _ _ _ _ h => exact h

/-- The first token of the rest of a line without content. -/
theorem Tail.type {c : Nat} (h : Tail W p c) : (W p).type = .comment ∨ (W p).type = .lineBreak ∨ (W p).type = .eof := by
  cases h with
  | none h => exact .inr (isBreakOrEOF_iff.1 h)
  | text h => exact .inl h

theorem Gap.le (h : Gap W p q) : p ≤ q := by
  induction h with
  | here => exact Nat.le_refl _
  | line _ h _ _ ih => have := h.le; omega
  | last _ h => have := h.le; omega

theorem Eol.lt (h : Eol W p q) : p < q := by
  cases h with
  | line _ h _ _ h2 => have := h.le; have := h2.le; omega
  | last _ h => have := h.le; omega

theorem ex_skipWhite (hG : Ground W) : ∀ {j p : Nat}, (0 < j → W.hold = false) → Sp W p j → ∀ {f : Nat},
    Ex W p k (skipWhile f isWhite : M σ Unit) (p + j) k ()
  | 0, p, _, h, f => by
    refine Ex.loopStop ?_
    refine Ex.bind Ex.tok ?_
    rw [if_neg (by simp [isWhite_false h.ns h.nt])]
    exact Ex.pure
  | j + 1, p, hh, h, f => by
    refine Ex.loopGo (p' := p + 1) (j := k) (y := ()) ?_ (fun f => ?_)
    · refine Ex.bind Ex.tok ?_
      rw [if_pos (isWhite_of_space h.head)]
      exact Ex.bind (Ex.nextG hG h.calm (.of h.head) (by simp [hh (by omega)])) Ex.pure
    · exact (ex_skipWhite hG (fun _ => hh (by omega)) h.tail).cast (by omega)

theorem ex_sepInLine_no (hw : Sp W p 0) (hs : solW W p = false) :
    Ex W p k (parseSeparateInLine f : M σ Bool) p k false := by
  unfold parseSeparateInLine
  refine Ex.bind Ex.hasErrors ?_
  simp only [Bool.false_eq_true, if_false]
  refine Ex.bind Ex.tok (Ex.bind Ex.startOfLine ?_)
  have h1 := isWhite_false hw.2.1 hw.2.2
  simp only [Nat.add_zero] at h1
  simp only [h1, hs, Bool.not_false, Bool.and_self, if_true]
  exact Ex.pure

theorem ex_sepInLine_yesG (hG : Ground W) (hh : 0 < j → W.hold = false) (hw : Sp W p j) (hs : 0 < j ∨ solW W p = true) :
    Ex W p k (parseSeparateInLine f : M σ Bool) (p + j) k true := by
  unfold parseSeparateInLine
  refine Ex.bind Ex.hasErrors ?_
  simp only [Bool.false_eq_true, if_false]
  refine Ex.bind Ex.tok (Ex.bind Ex.startOfLine ?_)
  rw [if_neg]
  · exact Ex.bind (ex_skipWhite hG hh hw) Ex.pure
  · rcases hs with hs | hs
    · cases j with
      | zero => omega
      | succ j => simp [isWhite_of_space hw.head]
    · simp [hs]

theorem ex_sepInLine_yes (hF : Flat W) (hw : Sp W p j) (hs : 0 < j ∨ solW W p = true) :
    Ex W p k (parseSeparateInLine f : M σ Bool) (p + j) k true :=
  ex_sepInLine_yesG hF.toGround (fun _ => hF.free) hw hs

/-- The optional separation in a line. -/
theorem ex_sepInLine_optG (hG : Ground W) (hh : 0 < j → W.hold = false) (hw : Sp W p j) :
    ∃ b, Ex W p k (attempt id (parseSeparateInLine f) : M σ Bool) (p + j) k b := by
  cases hs : solW W p with
  | true => exact ⟨true, (ex_sepInLine_yesG hG hh hw (.inr hs)).attemptT rfl⟩
  | false =>
    cases j with
    | zero => exact ⟨false, Ex.attemptF (ex_sepInLine_no hw hs) rfl⟩
    | succ j => exact ⟨true, (ex_sepInLine_yesG hG hh hw (.inl (by omega))).attemptT rfl⟩

theorem ex_sepInLine_opt (hF : Flat W) (hw : Sp W p j) :
    ∃ b, Ex W p k (attempt id (parseSeparateInLine f) : M σ Bool) (p + j) k b :=
  ex_sepInLine_optG hF.toGround (fun _ => hF.free) hw

theorem ex_commentText_no (h : (W p).type ≠ .comment) : Ex W p k (parseCommentText f : M σ Bool) p k false := by
  unfold parseCommentText
  refine Ex.bind Ex.hasErrors ?_
  simp only [Bool.false_eq_true, if_false]
  refine Ex.bind Ex.tok ?_
  rw [if_pos h]
  exact Ex.pure

theorem isBreakOrEOF_false {t : Tok} (h1 : t.type ≠ .lineBreak) (h2 : t.type ≠ .eof) : isBreakOrEOF t = false := by
  simp [isBreakOrEOF, h1, h2]

theorem solW_break (hp : 1 ≤ p) (h : (W p).type = .lineBreak) : solW W (p + 1) = true := by
  rw [solW_succ W hp]; simp [isStartOfLine, h]

theorem solW_not (hp : 1 ≤ p) (h : (W p).type ≠ .lineBreak) (h2 : (W p).type ≠ .bom) : solW W (p + 1) = false := by
  rw [solW_succ W hp]
  unfold isStartOfLine
  split <;> first | rfl | contradiction

theorem solW_eof (hp : 1 ≤ p) (h : (W p).type = .eof) : solW W (p + 1) = false :=
  solW_not hp (by simp [h]) (by simp [h])

/-- After the gap there is a line with content, or the end. -/
theorem Gap.then (h : Gap W p q) (hp : 1 ≤ p) (hs : solW W p = true) : (∃ j, Line W q j) ∨ Done W q := by
  induction h with
  | here h1 h2 => exact .inl ⟨_, h1, h2, hs⟩
  | line h1 h2 h3 h4 ih =>
    have := h2.le
    exact ih (by omega) (solW_break (by omega) h3)
  | last h1 h2 h3 h4 =>
    have := h2.le
    exact .inr ⟨h4, solW_eof (by omega) h3⟩

theorem Eol.then (h : Eol W p q) (hp : 1 ≤ p) : (∃ j, Line W q j) ∨ Done W q := by
  cases h with
  | line _ h2 _ h3 h4 =>
    have := h2.le
    exact h4.then (by omega) (solW_break (by omega) h3)
  | last h1 h2 _ h3 h4 =>
    have := h2.le
    exact .inr ⟨h4, solW_eof (by omega) h3⟩

theorem isNonBreak_false {t : Tok} (h : isBreakOrEOF t = true) : isNonBreak t = false := by
  rcases isBreakOrEOF_iff.1 h with h | h <;> simp [isNonBreak, h, TokType.isNonBreak]

theorem ex_skipNonBreak (hF : Flat W) {c : Nat} : ∀ {i p : Nat}, c = p + i →
    (∀ i, p ≤ i → i < c → isNonBreak (W i) = true ∧ Calm W i ∧ Free (W i)) →
    isBreakOrEOF (W c) = true → ∀ {f : Nat}, Ex W p k (skipWhile f isNonBreak : M σ Unit) c k ()
  | 0, p, e, _, h, f => by
    simp only [Nat.add_zero] at e
    subst e
    refine Ex.loopStop ?_
    refine Ex.bind Ex.tok ?_
    rw [if_neg (by simp [isNonBreak_false h])]
    exact Ex.pure
  | i + 1, p, e, hn, h, f => by
    refine Ex.loopGo (p' := p + 1) (j := k) (y := ()) ?_ (fun f => ?_)
    · refine Ex.bind Ex.tok ?_
      rw [if_pos (hn p (Nat.le_refl _) (by omega)).1]
      exact Ex.bind (Ex.next hF (hn p (Nat.le_refl _) (by omega)).2.1 (hn p (Nat.le_refl _) (by omega)).2.2) Ex.pure
    · exact ex_skipNonBreak hF (i := i) (by omega) (fun i h1 h2 => hn i (by omega) h2) h

/-- The optional comment at the end of a line. -/
theorem ex_commentText_opt (hF : Flat W) {c : Nat} (h : Tail W p c) :
    ∃ b, Ex W p k (attempt id (parseCommentText f) : M σ Bool) c k b := by
  cases h with
  | none h =>
    refine ⟨false, Ex.attemptF (ex_commentText_no ?_) rfl⟩
    rcases isBreakOrEOF_iff.1 h with h | h <;> simp [h]
  | text h1 hc h2 h3 h4 =>
    refine ⟨true, Ex.attemptT ?_ rfl⟩
    unfold parseCommentText
    refine Ex.bind Ex.hasErrors ?_
    simp only [Bool.false_eq_true, if_false]
    refine Ex.bind Ex.tok ?_
    rw [if_neg (by simp [h1])]
    refine Ex.bind (Ex.next hF hc (.of h1)) (Ex.bind (ex_skipNonBreak hF (i := c - (p + 1)) (by omega) ?_ h4) Ex.pure)
    intro i h5 h6
    exact h3 i (by omega) h6

/-- A line without content. -/
theorem ex_commentLine (hF : Flat W) {c : Nat} (hw : Sp W p j) (hs : solW W p = true) (hc : Tail W (p + j) c) :
    Ex W p k (parseCommentLine f : M σ Bool) (c + 1) k true := by
  obtain ⟨b, hb⟩ := ex_commentText_opt (σ := σ) (k := k) (f := f) hF hc
  unfold parseCommentLine
  refine Ex.bind Ex.hasErrors ?_
  simp only [Bool.false_eq_true, if_false]
  refine Ex.bind (ex_sepInLine_yes hF hw (.inr hs)) ?_
  simp only [Bool.not_true, Bool.false_eq_true, if_false]
  refine Ex.bind hb ?_
  refine Ex.bind Ex.tok ?_
  rw [if_neg (by simp [hc.brk])]
  exact Ex.bind (Ex.nextL hF hc.brk) Ex.pure

/-- A line with content is no comment line. -/
theorem ex_commentLine_noG (hG : Ground W) (hh : 0 < j → W.hold = false) (h : Line W p j) :
    Ex W p k (parseCommentLine f : M σ Bool) (p + j) k false := by
  have hn := h.begins
  unfold parseCommentLine
  refine Ex.bind Ex.hasErrors ?_
  simp only [Bool.false_eq_true, if_false]
  refine Ex.bind (ex_sepInLine_yesG hG hh h.sp (.inr h.sol)) ?_
  simp only [Bool.not_true, Bool.false_eq_true, if_false]
  refine Ex.bind (Ex.attemptF (ex_commentText_no hn.2.2.2.2.1) rfl) ?_
  refine Ex.bind Ex.tok ?_
  rw [if_pos (by simp [isBreakOrEOF_false hn.2.2.1 hn.2.2.2.1])]
  exact Ex.pure

theorem Line.held (h : Line W p j) : Line W.held p j := ⟨h.sp, h.begins, h.sol⟩

/-- The same as an attempt. -/
theorem ex_commentLine_try (hF : Flat W) (h : Line W p j) :
    Ex W p k (attempt id (parseCommentLine f) : M σ Bool) p k false := by
  cases j with
  | zero => exact Ex.attemptF (ex_commentLine_noG hF.held (by omega) h.held) rfl
  | succ j => exact Ex.attemptN (ex_commentLine_noG hF.toGround (fun _ => hF.free) h) (.inr (Free.of h.sp.head).1) rfl

theorem ex_commentLine_no (hF : Flat W) (h : Line W p j) : Ex W p k (parseCommentLine f : M σ Bool) (p + j) k false :=
  ex_commentLine_noG hF.toGround (fun _ => hF.free) h

theorem ex_commentLine_mid (hw : Sp W p 0) (hs : solW W p = false) :
    Ex W p k (parseCommentLine f : M σ Bool) p k false := by
  unfold parseCommentLine
  refine Ex.bind Ex.hasErrors ?_
  simp only [Bool.false_eq_true, if_false]
  refine Ex.bind (ex_sepInLine_no hw hs) ?_
  simp only [Bool.not_false, if_true]
  exact Ex.pure

/-- All lines without content. -/
theorem ex_commentLines (hF : Flat W) (h : Gap W p q) : ∀ {f : Nat}, 1 ≤ p → solW W p = true → ∀ f0,
    Ex W p k (tries f (fun u => do
      let c ← parseCommentLine f0
      pure (c, u)) () : M σ Unit) q k () := by
  induction h with
  | here h1 h2 =>
    intro f hp hs f0
    rename_i j
    cases j with
    | zero => exact Ex.triesStop (Ex.bind (ex_commentLine_noG hF.held (by omega) ⟨h1, h2, hs⟩) Ex.pure)
    | succ j => exact Ex.triesStopN (Ex.bind (ex_commentLine_no hF ⟨h1, h2, hs⟩) Ex.pure) (.inr (Free.of h1.head).1)
  | line h1 h2 h3 h4 ih =>
    intro f hp hs f0
    have := h2.le
    exact Ex.triesGo (Ex.bind (ex_commentLine hF h1 hs h2) Ex.pure) (fun f => ih (by omega) (solW_break (by omega) h3) f0)
  | last h1 h2 h3 h4 =>
    intro f hp hs f0
    have := h2.le
    refine Ex.triesGo (Ex.bind (ex_commentLine hF h1 hs h2) Ex.pure) (fun f => ?_)
    exact Ex.loopStop (Ex.attemptF (Ex.bind (ex_commentLine_mid (Sp.zero (by simp [h4]) (by simp [h4]))
      (solW_eof (by omega) h3)) Ex.pure) rfl)

/-- The end of a line. -/
theorem ex_separatedComment (hF : Flat W) {c : Nat} (hw : Sp W p j) (hc : Tail W (p + j) c)
    (hj : solW W p = true ∨ 0 < j ∨ c = p + j) : Ex W p k (parseSeparatedComment f : M σ Bool) (c + 1) k true := by
  unfold parseSeparatedComment
  refine Ex.bind Ex.hasErrors ?_
  simp only [Bool.false_eq_true, if_false]
  have h1 : ∃ b, Ex W p k (attempt id (do
      let s ← parseSeparateInLine f
      if !s then pure false else
      let _ ← attempt id (parseCommentText f)
      pure true) : M σ Bool) c k b := by
    obtain ⟨b, hb⟩ := ex_commentText_opt (σ := σ) (k := k) (f := f) hF hc
    have hy : 0 < j ∨ solW W p = true → Ex W p k (attempt id (do
        let s ← parseSeparateInLine f
        if !s then pure false else
        let _ ← attempt id (parseCommentText f)
        pure true) : M σ Bool) c k true := by
      intro hs
      refine Ex.attemptT ?_ rfl
      refine Ex.bind (ex_sepInLine_yes hF hw hs) ?_
      simp only [Bool.not_true, Bool.false_eq_true, if_false]
      exact Ex.bind hb Ex.pure
    cases hs : solW W p with
    | true => exact ⟨true, hy (.inr hs)⟩
    | false =>
      cases j with
      | zero =>
        have e : c = p := by
          rcases hj with h | h | h
          · rw [hs] at h; cases h
          · omega
          · exact h
        subst e
        refine ⟨false, Ex.attemptF (q := c) ?_ rfl⟩
        refine Ex.bind (ex_sepInLine_no hw hs) ?_
        simp only [Bool.not_false, if_true]
        exact Ex.pure
      | succ j => exact ⟨true, hy (.inl (by omega))⟩
  obtain ⟨b, h1⟩ := h1
  refine Ex.bind h1 ?_
  refine Ex.bind Ex.tok ?_
  rw [if_neg (by simp [hc.brk])]
  exact Ex.bind (Ex.nextL hF hc.brk) Ex.pure

theorem ex_separatedComment_noG (hG : Ground W) (hh : 0 < j → W.hold = false) (hw : Sp W p j) (hc : Begins (W (p + j))) :
    Ex W p k (parseSeparatedComment f : M σ Bool) (p + j) k false := by
  unfold parseSeparatedComment
  refine Ex.bind Ex.hasErrors ?_
  simp only [Bool.false_eq_true, if_false]
  have h1 : ∃ b, Ex W p k (attempt id (do
      let s ← parseSeparateInLine f
      if !s then pure false else
      let _ ← attempt id (parseCommentText f)
      pure true) : M σ Bool) (p + j) k b := by
    have hy : 0 < j ∨ solW W p = true → Ex W p k (attempt id (do
        let s ← parseSeparateInLine f
        if !s then pure false else
        let _ ← attempt id (parseCommentText f)
        pure true) : M σ Bool) (p + j) k true := by
      intro hs
      refine Ex.attemptT ?_ rfl
      refine Ex.bind (ex_sepInLine_yesG hG hh hw hs) ?_
      simp only [Bool.not_true, Bool.false_eq_true, if_false]
      exact Ex.bind (Ex.attemptF (ex_commentText_no hc.2.2.2.2.1) rfl) Ex.pure
    cases hs : solW W p with
    | true => exact ⟨true, hy (.inr hs)⟩
    | false =>
      cases j with
      | zero =>
        refine ⟨false, Ex.attemptF (q := p) ?_ rfl⟩
        refine Ex.bind (ex_sepInLine_no hw hs) ?_
        simp only [Bool.not_false, if_true]
        exact Ex.pure
      | succ j => exact ⟨true, hy (.inl (by omega))⟩
  obtain ⟨b, h1⟩ := h1
  refine Ex.bind h1 ?_
  refine Ex.bind Ex.tok ?_
  rw [if_pos (by simp [isBreakOrEOF_false hc.2.2.1 hc.2.2.2.1])]
  exact Ex.pure

/-- A failing attempt in front of spaces. -/
theorem Ex.attemptJ {valid : α → Bool} {m : M σ α} {a : α} (hw : Sp W p j) (h0 : j = 0 → Ex W.held p k m q l a)
    (h1 : 0 < j → Ex W p k m q l a) (hv : valid a = false) : Ex W p k (attempt valid m) p l a := by
  cases j with
  | zero => exact Ex.attemptF (h0 rfl) hv
  | succ j => exact Ex.attemptN (h1 (by omega)) (.inr (Free.of hw.head).1) hv

theorem Ex.triesStopJ {body : α → M σ (Bool × α)} {x y : α} (hw : Sp W p j) (h0 : j = 0 → Ex W.held p k (body x) q l (false, y))
    (h1 : 0 < j → Ex W p k (body x) q l (false, y)) : Ex W p k (tries f body x) p l y := Ex.loopStop (Ex.attemptJ hw h0 h1 rfl)

theorem ex_comments_of {c : Nat} (hF : Flat W) (h1 : Ex W p k (parseSeparatedComment f : M σ Bool) c k true)
    (h2 : Ex W c k (commentLines f : M σ Unit) q k ()) : Ex W p k (parseComments f : M σ Bool) q k true := by
  unfold parseComments
  refine Ex.bind Ex.hasErrors ?_
  simp only [Bool.false_eq_true, if_false]
  refine Ex.bind (h1.attemptT rfl) (Ex.bind Ex.startOfLine ?_)
  simp only [Bool.not_true, Bool.false_and, Bool.false_eq_true, if_false]
  exact Ex.bind h2 Ex.pure

theorem ex_commentLines_end (hF : Flat W) (hp : 1 ≤ p) (h : (W p).type = .eof) (h2 : (W (p + 1)).type = .eof) :
    Ex W (p + 1) k (commentLines f : M σ Unit) (p + 1) k () :=
  Ex.loopStop (Ex.attemptF (Ex.bind (ex_commentLine_mid (Sp.zero (by simp [h2]) (by simp [h2])) (solW_eof hp h)) Ex.pure) rfl)

/-- Comments at the end of a line. -/
theorem ex_comments_eol (hF : Flat W) (hp : 1 ≤ p) (h : Eol W p q) :
    Ex W p k (parseComments f : M σ Bool) q k true := by
  cases h with
  | line h1 h2 h3 h4 h5 =>
    have := h2.le
    exact ex_comments_of hF (ex_separatedComment hF h1 h2 (.inr h3))
      (ex_commentLines hF h5 (by omega) (solW_break (by omega) h4) f)
  | last h1 h2 h3 h4 h5 =>
    have := h2.le
    exact ex_comments_of hF (ex_separatedComment hF h1 h2 (.inr h3)) (ex_commentLines_end hF (by omega) h4 h5)

/-- Comments at the start of a line. -/
theorem ex_comments_gap (hF : Flat W) (hp : 1 ≤ p) (hs : solW W p = true) (h : Gap W p q) :
    Ex W p k (parseComments f : M σ Bool) q k true := by
  cases h with
  | here h1 h2 =>
    unfold parseComments
    refine Ex.bind Ex.hasErrors ?_
    simp only [Bool.false_eq_true, if_false]
    refine Ex.bind (Ex.attemptJ h1 (fun e => ex_separatedComment_noG hF.held (by omega) h1 h2)
      (fun _ => ex_separatedComment_noG hF.toGround (fun _ => hF.free) h1 h2) rfl) (Ex.bind Ex.startOfLine ?_)
    simp only [hs, Bool.not_true, Bool.and_false, Bool.false_eq_true, if_false]
    exact Ex.bind (ex_commentLines hF (.here h1 h2) hp hs f) Ex.pure
  | line h1 h2 h3 h4 =>
    have := h2.le
    exact ex_comments_of hF (ex_separatedComment hF h1 h2 (.inl hs))
      (ex_commentLines hF h4 (by omega) (solW_break (by omega) h3) f)
  | last h1 h2 h3 h4 =>
    have := h2.le
    exact ex_comments_of hF (ex_separatedComment hF h1 h2 (.inl hs)) (ex_commentLines_end hF (by omega) h3 h4)

/-- No comments in front of content in a line. -/
theorem ex_comments_midG (hG : Ground W) (hh : 0 < j → W.hold = false) (hw : Sp W p j) (hs : solW W p = false) (hc : Begins (W (p + j))) :
    Ex W p k (parseComments f : M σ Bool) p k false := by
  unfold parseComments
  refine Ex.bind Ex.hasErrors ?_
  simp only [Bool.false_eq_true, if_false]
  refine Ex.bind (Ex.attemptJ hw (fun e => ex_separatedComment_noG hG.held (by omega) hw hc)
    (fun _ => ex_separatedComment_noG hG hh hw hc) rfl) (Ex.bind Ex.startOfLine ?_)
  simp only [hs, Bool.not_false, Bool.and_self, if_true]
  exact Ex.pure

theorem ex_comments_mid (hF : Flat W) (hw : Sp W p j) (hs : solW W p = false) (hc : Begins (W (p + j))) :
    Ex W p k (parseComments f : M σ Bool) p k false :=
  ex_comments_midG hF.toGround (fun _ => hF.free) hw hs hc

/-! ### Indentation -/

theorem ex_spacesG (hG : Ground W) : ∀ {n p : Nat}, (0 < n → W.hold = false) → (∀ i, i < n → (W (p + i)).type = .space ∧ Calm W (p + i)) →
    Ex W p k (spaces n : M σ Bool) (p + n) k true
  | 0, p, _, _ => Ex.pure
  | n + 1, p, hh, h => by
    rw [spaces]
    refine Ex.bind Ex.tok ?_
    rw [if_neg (by simpa using (h 0 (by omega)).1)]
    refine Ex.bind (Ex.nextG hG (h 0 (by omega)).2 (.of (h 0 (by omega)).1) (by simp [hh (by omega)])) ?_
    refine (ex_spacesG hG (n := n) (p := p + 1) (fun _ => hh (by omega)) (fun i hi => ?_)).cast (by omega)
    have := h (i + 1) (by omega)
    rw [show p + 1 + i = p + (i + 1) from by omega]; exact this

theorem ex_spaces (hF : Flat W) (h : ∀ i, i < n → (W (p + i)).type = .space ∧ Calm W (p + i)) :
    Ex W p k (spaces n : M σ Bool) (p + n) k true :=
  ex_spacesG hF.toGround (fun _ => hF.free) h

theorem ex_spaces_shortG (hG : Ground W) : ∀ {n j p : Nat}, (0 < j → W.hold = false) → Sp W p j → j < n →
    Ex W p k (spaces n : M σ Bool) (p + j) k false
  | 0, j, p, _, _, h => by omega
  | n + 1, 0, p, _, hw, _ => by
    rw [spaces]
    refine Ex.bind Ex.tok ?_
    rw [if_pos hw.ns]
    exact Ex.pure
  | n + 1, j + 1, p, hh, hw, h => by
    rw [spaces]
    refine Ex.bind Ex.tok ?_
    rw [if_neg (by simp [hw.head])]
    exact Ex.bind (Ex.nextG hG hw.calm (.of hw.head) (by simp [hh (by omega)]))
      ((ex_spaces_shortG hG (fun _ => hh (by omega)) hw.tail (by omega)).cast (by omega))

theorem ex_spaces_short (hF : Flat W) (hw : Sp W p j) (h : j < n) : Ex W p k (spaces n : M σ Bool) (p + j) k false :=
  ex_spaces_shortG hF.toGround (fun _ => hF.free) hw h

theorem ex_indentStrictG (hG : Ground W) (hh : 0 < j → W.hold = false) (hw : Sp W p j) (h : n ≤ j) :
    Ex W p k (parseIndentStrict (n : Int) : M σ Bool) (p + n) k true := by
  unfold parseIndentStrict
  refine Ex.bind Ex.hasErrors ?_
  rw [if_neg (by simp)]
  exact ex_spacesG hG (fun h0 => hh (by rw [Int.toNat_natCast] at h0; omega)) (fun i hi => hw.1 i (by rw [Int.toNat_natCast] at hi; omega))

theorem ex_indentStrict (hF : Flat W) (hw : Sp W p j) (h : n ≤ j) :
    Ex W p k (parseIndentStrict (n : Int) : M σ Bool) (p + n) k true :=
  ex_indentStrictG hF.toGround (fun _ => hF.free) hw h

theorem ex_indentStrict_shortG (hG : Ground W) (hh : 0 < j → W.hold = false) (hw : Sp W p j) (h : j < n) :
    Ex W p k (parseIndentStrict (n : Int) : M σ Bool) (p + j) k false := by
  unfold parseIndentStrict
  refine Ex.bind Ex.hasErrors ?_
  rw [if_neg (by simp)]
  exact ex_spaces_shortG hG hh hw (by rw [Int.toNat_natCast]; omega)

theorem ex_indentStrict_short (hF : Flat W) (hw : Sp W p j) (h : j < n) :
    Ex W p k (parseIndentStrict (n : Int) : M σ Bool) (p + j) k false :=
  ex_indentStrict_shortG hF.toGround (fun _ => hF.free) hw h

theorem ex_countSpacesG (hG : Ground W) : ∀ {j p : Nat} {c : Int}, (0 < j → W.hold = false) → Sp W p j → ∀ {f : Nat},
    Ex W p k (countSpaces f c : M σ Int) (p + j) k (c + j)
  | 0, p, c, _, h, f => by
    rw [show c + ((0 : Nat) : Int) = c from by omega]
    refine Ex.loopStop ?_
    refine Ex.bind Ex.tok ?_
    rw [if_neg h.ns]
    exact Ex.pure
  | j + 1, p, c, hh, h, f => by
    refine Ex.loopGo (p' := p + 1) (j := k) (y := c + 1) ?_ (fun f => ?_)
    · refine Ex.bind Ex.tok ?_
      rw [if_pos h.head]
      exact Ex.bind (Ex.nextG hG h.calm (.of h.head) (by simp [hh (by omega)])) Ex.pure
    · have := (ex_countSpacesG hG (c := c + 1) (fun _ => hh (by omega)) h.tail (f := f))
      rw [show p + (j + 1) = p + 1 + j from by omega, show c + ((j + 1 : Nat) : Int) = c + 1 + j from by omega]
      exact this

theorem ex_indentLowerG (hG : Ground W) (hh : 0 < j → W.hold = false) (hw : Sp W p j) (h : n ≤ j) :
    Ex W p k (parseIndentLowerBound f (n : Int) : M σ (Option Int)) (p + j) k (some (j : Int)) := by
  unfold parseIndentLowerBound
  refine Ex.bind Ex.hasErrors ?_
  simp only [Bool.false_eq_true, if_false]
  obtain ⟨i, rfl⟩ : ∃ i, j = n + i := ⟨j - n, by omega⟩
  refine Ex.bind (ex_spacesG hG (fun h0 => hh (by rw [Int.toNat_natCast] at h0; omega)) (n := (n : Int).toNat) (fun i hi => hw.1 i (by rw [Int.toNat_natCast] at hi; omega))) ?_
  simp only [Bool.not_true, Bool.false_eq_true, if_false]
  have h1 := ex_countSpacesG (σ := σ) (k := k) (f := f) hG (c := max (n : Int) 0) (fun h0 => hh (by omega)) hw.drop
  rw [show max (n : Int) 0 + (i : Int) = ((n + i : Nat) : Int) from by omega] at h1
  rw [show (n : Int).toNat = n from Int.toNat_natCast n]
  exact Ex.bind h1 (Ex.pure.cast (by omega))

theorem ex_indentLower (hF : Flat W) (hw : Sp W p j) (h : n ≤ j) :
    Ex W p k (parseIndentLowerBound f (n : Int) : M σ (Option Int)) (p + j) k (some (j : Int)) :=
  ex_indentLowerG hF.toGround (fun _ => hF.free) hw h

theorem ex_indent_strictG (hG : Ground W) (hh : 0 < j → W.hold = false) (hw : Sp W p j) (h : n ≤ j) :
    Ex W p k (parseIndent f ⟨n, .strict⟩ : M σ (Bool × Ind)) (p + n) k (true, ⟨n, .strict⟩) :=
  Ex.bind (ex_indentStrictG hG hh hw h) Ex.pure

theorem ex_indent_strict (hF : Flat W) (hw : Sp W p j) (h : n ≤ j) :
    Ex W p k (parseIndent f ⟨n, .strict⟩ : M σ (Bool × Ind)) (p + n) k (true, ⟨n, .strict⟩) :=
  ex_indent_strictG hF.toGround (fun _ => hF.free) hw h

theorem ex_indent_shortG (hG : Ground W) (hh : 0 < j → W.hold = false) (hw : Sp W p j) (h : j < n) :
    Ex W p k (parseIndent f ⟨n, .strict⟩ : M σ (Bool × Ind)) (p + j) k (false, ⟨n, .strict⟩) :=
  Ex.bind (ex_indentStrict_shortG hG hh hw h) Ex.pure

theorem ex_indent_short (hF : Flat W) (hw : Sp W p j) (h : j < n) :
    Ex W p k (parseIndent f ⟨n, .strict⟩ : M σ (Bool × Ind)) (p + j) k (false, ⟨n, .strict⟩) :=
  ex_indent_shortG hF.toGround (fun _ => hF.free) hw h

theorem ex_indent_lowerG (hG : Ground W) (hh : 0 < j → W.hold = false) (hw : Sp W p j) (h : n ≤ j) :
    Ex W p k (parseIndent f ⟨n, .lowerBound⟩ : M σ (Bool × Ind)) (p + j) k (true, ⟨j, .strict⟩) :=
  Ex.bind (ex_indentLowerG hG hh hw h) Ex.pure

theorem ex_indent_lower (hF : Flat W) (hw : Sp W p j) (h : n ≤ j) :
    Ex W p k (parseIndent f ⟨n, .lowerBound⟩ : M σ (Bool × Ind)) (p + j) k (true, ⟨j, .strict⟩) :=
  ex_indent_lowerG hF.toGround (fun _ => hF.free) hw h

theorem ex_indent_lower_shortG (hG : Ground W) (hh : 0 < j → W.hold = false) (hw : Sp W p j) (h : j < n) :
    Ex W p k (parseIndent f ⟨n, .lowerBound⟩ : M σ (Bool × Ind)) (p + j) k (false, ⟨n, .lowerBound⟩) := by
  refine Ex.bind (a := none) ?_ Ex.pure
  unfold parseIndentLowerBound
  refine Ex.bind Ex.hasErrors ?_
  simp only [Bool.false_eq_true, if_false]
  exact Ex.bind (ex_spaces_shortG hG (n := (n : Int).toNat) hh hw (by rw [Int.toNat_natCast]; exact h)) Ex.pure

theorem ex_indent_lower_short (hF : Flat W) (hw : Sp W p j) (h : j < n) :
    Ex W p k (parseIndent f ⟨n, .lowerBound⟩ : M σ (Bool × Ind)) (p + j) k (false, ⟨n, .lowerBound⟩) :=
  ex_indent_lower_shortG hF.toGround (fun _ => hF.free) hw h

theorem ex_flowLinePrefixG (hG : Ground W) (hh : 0 < j → W.hold = false) (hw : Sp W p j) (h : n ≤ j) :
    Ex W p k (parseFlowLinePrefix f ⟨n, .strict⟩ : M σ (Bool × Ind)) (p + j) k (true, ⟨n, .strict⟩) := by
  unfold parseFlowLinePrefix
  refine Ex.bind Ex.hasErrors ?_
  simp only [Bool.false_eq_true, if_false]
  refine Ex.bind (ex_indent_strictG hG hh hw h) ?_
  simp only [Bool.not_true, Bool.false_eq_true, if_false]
  obtain ⟨i, rfl⟩ : ∃ i, j = n + i := ⟨j - n, by omega⟩
  obtain ⟨b, hb⟩ := ex_sepInLine_optG (σ := σ) (k := k) (f := f) hG (fun h0 => hh (by omega)) hw.drop
  exact Ex.bind hb (Ex.pure.cast (by omega))

theorem ex_flowLinePrefix (hF : Flat W) (hw : Sp W p j) (h : n ≤ j) :
    Ex W p k (parseFlowLinePrefix f ⟨n, .strict⟩ : M σ (Bool × Ind)) (p + j) k (true, ⟨n, .strict⟩) :=
  ex_flowLinePrefixG hF.toGround (fun _ => hF.free) hw h

theorem ex_flowLinePrefix_shortG (hG : Ground W) (hh : 0 < j → W.hold = false) (hw : Sp W p j) (h : j < n) :
    Ex W p k (parseFlowLinePrefix f ⟨n, .strict⟩ : M σ (Bool × Ind)) (p + j) k (false, ⟨n, .strict⟩) := by
  unfold parseFlowLinePrefix
  refine Ex.bind Ex.hasErrors ?_
  simp only [Bool.false_eq_true, if_false]
  refine Ex.bind (ex_indent_shortG hG hh hw h) ?_
  simp only [Bool.not_false, if_true]
  exact Ex.pure

theorem ex_flowLinePrefix_short (hF : Flat W) (hw : Sp W p j) (h : j < n) :
    Ex W p k (parseFlowLinePrefix f ⟨n, .strict⟩ : M σ (Bool × Ind)) (p + j) k (false, ⟨n, .strict⟩) :=
  ex_flowLinePrefix_shortG hF.toGround (fun _ => hF.free) hw h

/-! ### Separation -/

/-- From token `p`, in a line or at the start of one, to content on token `q`, which is in the same line or in another line
with at least `n` spaces in front. -/
inductive Sep (W : Toks) (n : Nat) : Nat → Nat → Prop
  | mid {p j : Nat} : 1 ≤ p → Sp W p (j + 1) → solW W p = false → Begins (W (p + (j + 1))) → Sep W n p (p + (j + 1))
  | lines {p q j : Nat} : 1 ≤ p → Eol W p q → Line W q j → n ≤ j → Sep W n p (q + j)
  | start {p q j : Nat} : 1 ≤ p → solW W p = true → Gap W p q → Line W q j → n ≤ j → Sep W n p (q + j)

theorem Sep.pos (h : Sep W n p q) : 1 ≤ p := by cases h <;> assumption

theorem Sep.begins (h : Sep W n p q) : Begins (W q) := by
  cases h with
  | mid _ _ _ h => exact h
  | lines _ _ h => exact h.begins
  | start _ _ _ h => exact h.begins

theorem Sep.le (h : Sep W n p q) : p ≤ q := by
  cases h with
  | mid => omega
  | lines _ h => have := h.lt; omega
  | start _ _ h => have := h.le; omega

theorem Sep.mono (h : Sep W n p q) (hm : m ≤ n) : Sep W m p q := by
  cases h with
  | mid h1 h2 h3 h4 => exact .mid h1 h2 h3 h4
  | lines h1 h2 h3 h4 => exact .lines h1 h2 h3 (by omega)
  | start h1 h2 h3 h4 h5 => exact .start h1 h2 h3 h4 (by omega)

theorem ex_separateLines_of (h1 : Ex W p k (parseComments f : M σ Bool) p' k true)
    (h2 : Ex W p' k (parseFlowLinePrefix f ⟨n, .strict⟩ : M σ (Bool × Ind)) q k (true, ⟨n, .strict⟩)) :
    Ex W p k (parseSeparateLines f ⟨n, .strict⟩ : M σ (Bool × Ind)) q k (true, ⟨n, .strict⟩) := by
  unfold parseSeparateLines
  refine Ex.bind Ex.hasErrors ?_
  simp only [Bool.false_eq_true, if_false]
  refine Ex.bind (Ex.attemptT (q := q) (l := k) (a := (true, ⟨n, .strict⟩)) (Ex.bind h1 ?_) rfl) ?_
  · simp only [Bool.not_true, Bool.false_eq_true, if_false]
    exact h2
  · simp only [if_true]
    exact Ex.pure

theorem ex_separateLines (hF : Flat W) (h : Sep W n p q) :
    Ex W p k (parseSeparateLines f ⟨n, .strict⟩ : M σ (Bool × Ind)) q k (true, ⟨n, .strict⟩) := by
  cases h with
  | mid hp hw hs hc =>
    unfold parseSeparateLines
    refine Ex.bind Ex.hasErrors ?_
    simp only [Bool.false_eq_true, if_false]
    refine Ex.bind (Ex.attemptN (q := p) (l := k) (a := (false, ⟨n, .strict⟩)) (Ex.bind (ex_comments_mid hF hw hs hc) ?_)
      (.inr (Free.of hw.head).1) rfl) ?_
    · simp only [Bool.not_false, if_true]
      exact Ex.pure
    · simp only [Bool.false_eq_true, if_false]
      exact Ex.bind (ex_sepInLine_yes hF hw (.inl (by omega))) Ex.pure
  | lines hp h1 h2 h3 => exact ex_separateLines_of (ex_comments_eol hF hp h1) (ex_flowLinePrefix hF h2.sp h3)
  | start hp hs h1 h2 h3 => exact ex_separateLines_of (ex_comments_gap hF hp hs h1) (ex_flowLinePrefix hF h2.sp h3)

theorem Tail.free {c : Nat} (h : Tail W p c) : Free (W p) := by
  rcases h.type with h | h | h <;> exact .of h

theorem Sp.free {c : Nat} (h : Sp W p j) (h2 : Tail W (p + j) c) : Free (W p) := by
  cases j with
  | zero => exact h2.free
  | succ j => exact .of h.head

theorem Eol.free (h : Eol W p q) : Free (W p) := by
  cases h with
  | line h1 h2 => exact h1.free h2
  | last h1 h2 => exact h1.free h2

/-- There is nothing in the line, and the next line has not enough spaces: what remains are the spaces in the line. -/
theorem ex_separateLines_short {i : Nat} (hF : Flat W) (hp : 1 ≤ p) (hs : solW W p = false) (h : Eol W p q) (hw : Sp W q j)
    (hj : j < n) (hi : Sp W p i) :
    Ex W p k (parseSeparateLines f ⟨n, .strict⟩ : M σ (Bool × Ind)) (p + i) k (decide (0 < i), ⟨n, .strict⟩) := by
  unfold parseSeparateLines
  refine Ex.bind Ex.hasErrors ?_
  simp only [Bool.false_eq_true, if_false]
  refine Ex.bind (Ex.attemptN (q := q + j) (l := k) (a := (false, ⟨n, .strict⟩)) (Ex.bind (ex_comments_eol hF hp h) ?_)
    (.inr h.free.1) rfl) ?_
  · simp only [Bool.not_true, Bool.false_eq_true, if_false]
    exact ex_flowLinePrefix_short hF hw hj
  · simp only [Bool.false_eq_true, if_false]
    cases i with
    | zero => exact Ex.bind (ex_sepInLine_no hi hs) Ex.pure
    | succ i => exact Ex.bind (ex_sepInLine_yes hF hi (.inl (by omega))) Ex.pure

theorem ex_separate_lines {ctx : PCtx} {ind : Ind} {r : Bool × Ind} (hx : ctx = .blockIn ∨ ctx = .blockOut ∨ ctx = .flowOut)
    (h : Ex W p k (parseSeparateLines f ind : M σ (Bool × Ind)) q l r) :
    Ex W p k (parseSeparate f ind ctx : M σ (Bool × Ind)) q l r := by
  rcases hx with rfl | rfl | rfl <;> exact h

/-! ### Properties -/

theorem ex_properties_no (ind : Ind) (ctx : PCtx) (h1 : (W p).type ≠ .tag) (h2 : (W p).type ≠ .anchor) :
    Ex W p k (parseProperties f ind ctx : M σ (Node × Ind)) p k (.invalid, ind) := by
  unfold parseProperties
  refine Ex.bind Ex.hasErrors ?_
  simp only [Bool.false_eq_true, if_false]
  refine Ex.bind Ex.tok ?_
  cases h : (W p).type <;> first | contradiction | exact Ex.pure

theorem ex_alias_no (h : (W p).type ≠ .alias) : Ex W p k (parseAliasNode : M σ Node) p k .invalid := by
  unfold parseAliasNode
  refine Ex.bind Ex.hasErrors ?_
  simp only [Bool.false_eq_true, if_false]
  refine Ex.bind Ex.tok ?_
  rw [if_pos h]
  exact Ex.pure

/-! ### Anchors, tags and aliases -/

/-- `&name` on token `p`. -/
structure Anch (W : Toks) (p : Nat) (a : Node) (q : Nat) : Prop where
  pos : 1 ≤ p
  sign : (W p).type = .anchor
  name : stringIn .anchor (W (p + 1)) = true
  node : a = .anchor (W (p + 1)).origin
  calm : Calm W p ∧ Calm W (p + 1)
  next : q = p + 2

/-- `*name` on token `p`. -/
structure Alia (W : Toks) (p : Nat) (a : Node) (q : Nat) : Prop where
  pos : 1 ≤ p
  sign : (W p).type = .alias
  name : stringIn .anchor (W (p + 1)) = true
  node : a = .alias (W (p + 1)).origin
  calm : Calm W p ∧ Calm W (p + 1)
  next : q = p + 2

/-- `!name` or `!!name` on token `p`. -/
inductive TagAt (W : Toks) : Nat → Node → Nat → Prop
  | one {p : Nat} : 1 ≤ p → (W p).type = .tag → stringIn .tag (W (p + 1)) = true → (W (p + 2)).type ≠ .tag →
      Calm W p ∧ Calm W (p + 1) → TagAt W p (.tag (W (p + 1)).origin) (p + 2)
  | two {p : Nat} : 1 ≤ p → (W p).type = .tag → (W (p + 1)).type = .tag → stringIn .tag (W (p + 2)) = true →
      Calm W p ∧ Calm W (p + 1) ∧ Calm W (p + 2) → TagAt W p (.tag (W (p + 2)).origin) (p + 3)

theorem stringIn_type {cst : YamlChar.CharSet} {t : Tok} (h : stringIn cst t = true) : t.type = .string := by
  simp only [stringIn, Bool.and_eq_true, decide_eq_true_eq] at h
  exact h.1

theorem TagAt.pos {a : Node} (h : TagAt W p a q) : 1 ≤ p := by cases h <;> assumption

theorem TagAt.sign {a : Node} (h : TagAt W p a q) : (W p).type = .tag := by cases h <;> assumption

theorem TagAt.lt {a : Node} (h : TagAt W p a q) : p < q := by cases h <;> omega

theorem TagAt.valid {a : Node} (h : TagAt W p a q) : validNode a = true := by cases h <;> rfl

theorem Anch.valid {a : Node} (h : Anch W p a q) : validNode a = true := by rw [h.node]; rfl

theorem TagAt.sol {a : Node} (h : TagAt W p a q) : solW W q = false := by
  cases h with
  | one h1 h2 h3 =>
    have := stringIn_type h3
    exact solW_not (p := p + 1) (by omega) (by simp [this]) (by simp [this])
  | two h1 h2 h3 h4 =>
    have := stringIn_type h4
    exact solW_not (p := p + 2) (by omega) (by simp [this]) (by simp [this])

theorem Anch.sol {a : Node} (h : Anch W p a q) : solW W q = false := by
  have := stringIn_type h.name
  rw [h.next]
  exact solW_not (p := p + 1) (by omega) (by simp [this]) (by simp [this])

theorem Alia.sol {a : Node} (h : Alia W p a q) : solW W q = false := by
  have := stringIn_type h.name
  rw [h.next]
  exact solW_not (p := p + 1) (by omega) (by simp [this]) (by simp [this])

theorem ex_alias (hF : Flat W) {a : Node} (h : Alia W p a q) : Ex W p k (parseAliasNode : M σ Node) q k a := by
  obtain ⟨h0, h1, h2, rfl, hc, rfl⟩ := h
  unfold parseAliasNode
  refine Ex.bind Ex.hasErrors ?_
  simp only [Bool.false_eq_true, if_false]
  refine Ex.bind Ex.tok ?_
  rw [if_neg (by simp [h1])]
  refine Ex.bind (Ex.next hF hc.1 (.of h1)) (Ex.bind Ex.tok ?_)
  rw [if_pos h2]
  exact Ex.bind (Ex.next hF hc.2 (.of (stringIn_type h2))) Ex.pure

theorem ex_anchor (hF : Flat W) {a : Node} (h : Anch W p a q) : Ex W p k (parseAnchorProperty : M σ Node) q k a := by
  obtain ⟨h0, h1, h2, rfl, hc, rfl⟩ := h
  unfold parseAnchorProperty
  refine Ex.bind Ex.hasErrors ?_
  simp only [Bool.false_eq_true, if_false]
  refine Ex.bind Ex.tok ?_
  rw [if_neg (by simp [h1])]
  refine Ex.attemptT ?_ rfl
  refine Ex.bind (Ex.next hF hc.1 (.of h1)) (Ex.bind Ex.tok ?_)
  rw [if_pos h2]
  exact Ex.bind (Ex.next hF hc.2 (.of (stringIn_type h2))) Ex.pure

theorem ex_anchor_no (h : (W p).type ≠ .anchor) : Ex W p k (parseAnchorProperty : M σ Node) p k .invalid := by
  unfold parseAnchorProperty
  refine Ex.bind Ex.hasErrors ?_
  simp only [Bool.false_eq_true, if_false]
  refine Ex.bind Ex.tok ?_
  rw [if_pos h]
  exact Ex.pure

theorem ex_tagHandle_no (h : (W p).type ≠ .tag) : Ex W p k (parseTagHandle : M σ Bool) p k false := by
  unfold parseTagHandle
  refine Ex.bind Ex.hasErrors ?_
  simp only [Bool.false_eq_true, if_false]
  refine Ex.bind Ex.tok ?_
  rw [if_pos h]
  exact Ex.pure

theorem ex_tag_no (h : (W p).type ≠ .tag) : Ex W p k (parseTagProperty : M σ Node) p k .invalid := by
  refine Ex.unheld ?_
  unfold parseTagProperty
  refine Ex.bind Ex.hasErrors ?_
  simp only [Bool.false_eq_true, if_false]
  refine ExS.ex (ExS.bind (ExS.setCheckpoint (.inl rfl)) ?_)
  refine ExS.bind (Ex.s (ex_tagHandle_no h)) (ExS.bind (Ex.s Ex.tok) ?_)
  simp only [Bool.false_and, Bool.false_eq_true, if_false]
  refine ExS.bind ExS.rollback (ExS.bind (Ex.s Ex.tok) ?_)
  rw [if_pos h]
  exact Ex.s Ex.pure

theorem ex_tag_of (hF : Flat W) (h0 : (W p).type = .tag) (h1 : Ex W p k (parseTagHandle : M σ Bool) q k true) (h2 : stringIn .tag (W q) = true)
    (hc : Calm W q) : Ex W p k (parseTagProperty : M σ Node) (q + 1) k (.tag (W q).origin) := by
  unfold parseTagProperty
  refine Ex.bind Ex.hasErrors ?_
  simp only [Bool.false_eq_true, if_false]
  refine ExS.ex (ExS.bind (ExS.setCheckpoint (.inr (Free.of h0).1)) ?_)
  refine ExS.bind (Ex.s h1) (ExS.bind (Ex.s Ex.tok) ?_)
  rw [if_pos (by simp [h2])]
  exact ExS.bind ExS.commit (ExS.bind (Ex.s (Ex.next hF hc (.of (stringIn_type h2)))) (Ex.s Ex.pure))

theorem ex_tag (hF : Flat W) {a : Node} (h : TagAt W p a q) : Ex W p k (parseTagProperty : M σ Node) q k a := by
  cases h with
  | one h1 h2 h3 h4 hc =>
    refine ex_tag_of (q := p + 1) hF h2 ?_ h3 hc.2
    have h5 := stringIn_type h3
    unfold parseTagHandle
    refine Ex.bind Ex.hasErrors ?_
    simp only [Bool.false_eq_true, if_false]
    refine Ex.bind Ex.tok ?_
    rw [if_neg (by simp [h2])]
    refine Ex.bind (Ex.next hF hc.1 (.of h2)) (Ex.bind Ex.tok ?_)
    rw [if_neg (by simp [h5])]
    have : ∃ q', Ex W (p + 1) k (do
        let t ← tok
        if stringIn .word t then do
          next
          let t ← tok
          if t.type = .tag then do
            next
            pure true
          else pure false
        else pure false : M σ Bool) q' k false := by
      cases hw : stringIn .word (W (p + 1)) with
      | true =>
        refine ⟨p + 2, Ex.bind Ex.tok ?_⟩
        rw [if_pos hw]
        refine Ex.bind (Ex.next hF hc.2 (.of h5)) (Ex.bind Ex.tok ?_)
        rw [if_neg h4]
        exact Ex.pure
      | false =>
        refine ⟨p + 1, Ex.bind Ex.tok ?_⟩
        rw [if_neg (by simp [hw])]
        exact Ex.pure
    obtain ⟨q', this⟩ := this
    exact Ex.bind (this.attemptN (.inr (Free.of h5).1) rfl) Ex.pure
  | two h1 h2 h3 h4 hc =>
    refine ex_tag_of (q := p + 2) hF h2 ?_ h4 hc.2.2
    unfold parseTagHandle
    refine Ex.bind Ex.hasErrors ?_
    simp only [Bool.false_eq_true, if_false]
    refine Ex.bind Ex.tok ?_
    rw [if_neg (by simp [h2])]
    refine Ex.bind (Ex.next hF hc.1 (.of h2)) (Ex.bind Ex.tok ?_)
    rw [if_pos h3]
    exact Ex.bind (Ex.next hF hc.2.1 (.of h3)) Ex.pure

/-- Properties on token `p`; `ab` stands for the one which is absent. -/
inductive Props (W : Toks) (ab : Node) : Nat → Node → Nat → Prop
  | anchor {p q : Nat} {a : Node} : Anch W p a q → Props W ab p (.properties ab a) q
  | tag {p q : Nat} {t : Node} : TagAt W p t q → Props W ab p (.properties t ab) q
  | anchorTag {p p1 j q : Nat} {a t : Node} : Anch W p a p1 → Sp W p1 (j + 1) → TagAt W (p1 + (j + 1)) t q →
      Props W ab p (.properties t a) q
  | tagAnchor {p p1 j q : Nat} {a t : Node} : TagAt W p t p1 → Sp W p1 (j + 1) → Anch W (p1 + (j + 1)) a q →
      Props W ab p (.properties t a) q

theorem Props.pos {ab x : Node} (h : Props W ab p x q) : 1 ≤ p := by
  cases h with
  | anchor h => exact h.pos
  | tag h => exact h.pos
  | anchorTag h => exact h.pos
  | tagAnchor h => exact h.pos

theorem Props.lt {ab x : Node} (h : Props W ab p x q) : p < q := by
  cases h with
  | anchor h => rw [h.next]; omega
  | tag h => exact h.lt
  | anchorTag h _ h2 => have := h2.lt; have := h.next; omega
  | tagAnchor h _ h2 => have := h.lt; have := h2.next; omega

theorem Props.sol {ab x : Node} (h : Props W ab p x q) : solW W q = false := by
  cases h with
  | anchor h => exact h.sol
  | tag h => exact h.sol
  | anchorTag _ _ h => exact h.sol
  | tagAnchor _ _ h => exact h.sol

theorem Props.valid {ab x : Node} (h : Props W ab p x q) : validNode x = true := by cases h <;> rfl

theorem Props.type {ab x : Node} (h : Props W ab p x q) : (W p).type = .tag ∨ (W p).type = .anchor := by
  cases h with
  | anchor h => exact .inr h.sign
  | tag h => exact .inl h.sign
  | anchorTag h => exact .inr h.sign
  | tagAnchor h => exact .inl h.sign

theorem Props.begins {ab x : Node} (h : Props W ab p x q) : Begins (W p) := by
  rcases h.type with h | h <;> simp [Begins, h]

/-- Whether the other property is sought. -/
def absent (b : Bool) : Node := if b then .invalid else .nil

theorem validNode_absent (b : Bool) : validNode (absent b) = false := by cases b <;> rfl

/-- Separation within a line. -/
theorem ex_separate_mid {ctx : PCtx} (hF : Flat W) (hp : 1 ≤ p) (hx : ctx = .blockIn ∨ ctx = .blockOut ∨ ctx = .flowOut ∨ ctx = .blockKey)
    (hw : Sp W p (j + 1)) (hs : solW W p = false) (hc : Begins (W (p + (j + 1)))) :
    Ex W p k (parseSeparate f ⟨(n : Int), .strict⟩ ctx : M σ (Bool × Ind)) (p + (j + 1)) k (true, ⟨(n : Int), .strict⟩) := by
  rcases hx with h | h | h | rfl
  · exact ex_separate_lines (.inl h) (ex_separateLines hF (.mid hp hw hs hc))
  · exact ex_separate_lines (.inr (.inl h)) (ex_separateLines hF (.mid hp hw hs hc))
  · exact ex_separate_lines (.inr (.inr h)) (ex_separateLines hF (.mid hp hw hs hc))
  · exact Ex.bind (ex_sepInLine_yes hF hw (.inl (by omega))) Ex.pure

theorem ex_properties {ctx : PCtx} {b : Bool} {r : Nat} {x : Node} (hF : Flat W)
    (hx : ctx = .blockIn ∨ ctx = .blockOut ∨ ctx = .flowOut ∨ ctx = .blockKey) (h : Props W (absent b) p x q)
    (hs : Ex W q k (parseSeparate f ⟨(n : Int), .strict⟩ ctx : M σ (Bool × Ind)) r k (b, ⟨(n : Int), .strict⟩))
    (hr : b = true → (W r).type ≠ .tag ∧ (W r).type ≠ .anchor) (hq : isOpen (W q) = false) :
    Ex W p k (parseProperties f ⟨(n : Int), .strict⟩ ctx : M σ (Node × Ind)) q k (x, ⟨(n : Int), .strict⟩) := by
  have hno : ∀ {m : M σ Node}, (b = true → Ex W r k m r k .invalid) → Ex W q k (attempt (fun r => validNode r.1) (do
      let s ← parseSeparate f ⟨(n : Int), .strict⟩ ctx
      if s.1 then do
        let a ← m
        pure (a, s.2)
      else pure (.nil, s.2)) : M σ (Node × Ind)) q k (absent b, ⟨(n : Int), .strict⟩) := by
    intro m hm
    refine Ex.attemptN (q := r) (Ex.bind hs ?_) (.inr hq) (validNode_absent b)
    cases b with
    | true => exact Ex.bind (hm rfl) Ex.pure
    | false => exact Ex.pure
  unfold parseProperties
  refine Ex.bind Ex.hasErrors ?_
  simp only [Bool.false_eq_true, if_false]
  refine Ex.bind Ex.tok ?_
  cases h with
  | anchor h =>
    rw [h.sign]
    refine Ex.bind (ex_anchor hF h) ?_
    rw [if_neg (by simp [h.valid])]
    exact Ex.bind (hno fun e => ex_tag_no (hr e).1) Ex.pure
  | tag h =>
    rw [h.sign]
    refine Ex.bind (ex_tag hF h) ?_
    rw [if_neg (by simp [h.valid])]
    exact Ex.bind (hno fun e => ex_anchor_no (hr e).2) Ex.pure
  | anchorTag h1 h2 h3 =>
    rw [h1.sign]
    refine Ex.bind (ex_anchor hF h1) ?_
    rw [if_neg (by simp [h1.valid])]
    refine Ex.bind (Ex.attemptT (Ex.bind (ex_separate_mid hF (by rw [h1.next]; omega) hx h2 h1.sol
      (by simp [Begins, h3.sign])) (Ex.bind (ex_tag hF h3) Ex.pure)) h3.valid) ?_
    exact Ex.pure
  | tagAnchor h1 h2 h3 =>
    rw [h1.sign]
    refine Ex.bind (ex_tag hF h1) ?_
    rw [if_neg (by simp [h1.valid])]
    refine Ex.bind (Ex.attemptT (Ex.bind (ex_separate_mid hF (by have := h1.lt; omega) hx h2 h1.sol
      (by simp [Begins, h3.sign])) (Ex.bind (ex_anchor hF h3) Ex.pure)) h3.valid) ?_
    exact Ex.pure

end Verif.Parser
