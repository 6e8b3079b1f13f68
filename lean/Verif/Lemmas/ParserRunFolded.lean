import Verif.Lemmas.ParserRunLiteral

/-!
Exact executions of the productions of the parser for folded scalars.
-/

set_option linter.unusedSimpArgs false
set_option linter.unusedSectionVars false

namespace Verif.Parser

open Verif.Token Verif.Lexer Verif.Ast Verif.Spec.Cursor

variable {σ α β : Type} [TokenStream σ] [StreamOk σ]
variable {W : Toks} {p q p' j n m f c r i : Nat} {k l : Nat → Nat} {t b : List Char}

/-! ### Lines -/

/-- A line of text, indented by `m`: its first token is followed by one which is not read in raw mode. -/
inductive FoldText (W : Toks) (m p : Nat) : List Char → Nat → Prop
  | mk {t : List Char} {c : Nat} : (∀ i, i < m → (W (p + i)).type = .space ∧ Calm W (p + i)) → isNonBreak (W (p + m)) = true →
      isWhite (W (p + m)) = false → Calm W (p + m) → Free (W (p + m)) → RawLine W (p + m + 1) t c →
      FoldText W m p ((W (p + m)).origin ++ t) c

/-- What stands for a line break with `i` blank lines after it. -/
def folding : Nat → List Char
  | 0 => [' ']
  | i + 1 => List.replicate (i + 1) '\n'

/-- The further lines of the text, from the end of a line on token `c` on, up to the end of the last one on token `d`. -/
inductive FoldLines (W : Toks) (m : Nat) : Nat → List Char → Nat → Prop
  | more {c i p c' d : Nat} {t u : List Char} : (W c).type = .lineBreak → Voids W m (c + 1) i p → FoldText W m p t c' →
      FoldLines W m c' u d → FoldLines W m c (folding i ++ (t ++ u)) d
  | stop {c : Nat} : FoldLines W m c [] c

/-- A folded scalar: its sign on token `p`, and everything up to token `q`.  The text is indented by `m`. -/
inductive Gt (W : Toks) (N m : Nat) : Nat → List Char → Nat → Prop
  | mk {p b c d q i : Nat} {o : Option Nat} {ch : Chomping} {t u : List Char} : (W p).type = .folded → Calm W p → Header W (p + 1) ch i b →
      i = 0 ∨ i + N = m + 1 →
      Sp W (b + 1) m → FoldText W m (b + 1) t c → FoldLines W m c u d → Ending W m d o q → Gt W N m p (t ++ u ++ chomped ch o) q

theorem FoldText.lt (h : FoldText W m p t c) : p + m < c := by
  cases h with
  | mk _ _ _ _ _ h => have := h.le; omega

theorem FoldText.sp (h : FoldText W m p t c) : ∀ i, i < m → (W (p + i)).type = .space ∧ Calm W (p + i) := by
  cases h with
  | mk h => exact h

theorem FoldText.starts (h : FoldText W m p t c) : isNonBreak (W (p + m)) = true := by
  cases h with
  | mk _ h => exact h

theorem FoldLines.le {d : Nat} (h : FoldLines W m c t d) : c ≤ d := by
  induction h with
  | more _ h1 h2 _ ih => have := h1.le; have := h2.lt; omega
  | stop => exact Nat.le_refl _

theorem Gt.lt (h : Gt W N m p t q) : p < q := by
  cases h with
  | mk _ _ h1 _ _ h2 h3 h4 => have := h1.le; have := h2.lt; have := h3.le; have := h4.lt; omega

/-! ### Steps -/

/-- The line on token `q` is not blank. -/
def NoVoid (σ : Type) [TokenStream σ] [StreamOk σ] (W : Toks) (m q : Nat) : Prop := ∀ (k : Nat → Nat) (f : Nat) (b : List Char), ∃ r,
  Ex W q k (parseEmpty f ⟨m, .strict⟩ .blockIn b : M σ (Bool × Ind × Buf)) r k (false, ⟨m, .strict⟩, b) ∧
  (isOpen (W q) = false ∨ Ex W.held q k (parseEmpty f ⟨m, .strict⟩ .blockIn b : M σ (Bool × Ind × Buf)) r k (false, ⟨m, .strict⟩, b))

theorem FoldText.noVoid (hF : Flat W) (hm : 1 ≤ m) (h : FoldText W m p t c) : NoVoid σ W m p := fun _ _ _ =>
  ⟨p + m, ex_void_text hF h.sp (nonBreak_ne h.starts).1, .inl (Free.of (h.sp 0 hm).1).1⟩

theorem noVoid_short (hF : Flat W) (hw : Sp W p j) (hj : j < m) (h1 : (W (p + j)).type ≠ .lineBreak) : NoVoid σ W m p := fun _ _ _ => by
  refine ⟨p + j, ex_void_short hF hw hj h1, ?_⟩
  cases j with
  | zero => exact .inr (ex_void_shortG hF.held (by omega) hw hj h1)
  | succ j => exact .inl (Free.of hw.head).1

theorem ex_voids_empties (hF : Flat W) (h : Voids W m p i q) (hn : NoVoid σ W m q) : ∀ {f f0 : Nat} {b : List Char}, Ex W p k (tries f (fun x => do
      let r ← parseEmpty f0 x.1 .blockIn x.2
      if r.1 then pure (true, r.2) else do
      let b ← truncate x.2.length r.2.2
      pure (false, r.2.1, b)) (⟨m, .strict⟩, b) : M σ (Ind × Buf)) q k (⟨m, .strict⟩, b ++ List.replicate i '\n') := by
  induction h with
  | @nil p =>
    intro f f0 b
    rw [List.replicate, List.append_nil]
    obtain ⟨r, h1, h2⟩ := hn k f0 b
    rcases h2 with h2 | h2
    · refine Ex.triesStopN (q := r) (Ex.bind h1 ?_) (.inr h2)
      simp only [Bool.false_eq_true, if_false]
      exact Ex.bind ex_truncate_self Ex.pure
    · refine Ex.triesStop (q := r) (Ex.bind h2 ?_)
      simp only [Bool.false_eq_true, if_false]
      exact Ex.bind ex_truncate_self Ex.pure
  | cons h1 h2 h3 h4 _ ih =>
    intro f f0 b
    rw [← replicate_snoc]
    refine Ex.triesGo (Ex.bind (ex_void hF h1 h2 h3 h4) ?_) (fun f => ih hn)
    exact Ex.pure

/-- The end of a line, with the blank lines after it. -/
theorem ex_foldedLineBreak (hF : Flat W) (hl : (W p).type = .lineBreak) (h : Voids W m (p + 1) i q) (hn : NoVoid σ W m q) :
    Ex W p k (parseFoldedLineBreak f ⟨m, .strict⟩ .blockIn b : M σ (Bool × Ind × Buf)) q k (true, ⟨m, .strict⟩, b ++ folding i) := by
  cases h with
  | nil =>
    obtain ⟨r, h2, -⟩ := hn k f b
    have h1 : Ex W p k (parseTrimmed f ⟨m, .strict⟩ .blockIn b : M σ (Bool × Ind × Buf)) r k (false, ⟨m, .strict⟩, b) := by
      unfold parseTrimmed
      refine Ex.bind Ex.hasErrors ?_
      simp only [Bool.false_eq_true, if_false]
      refine Ex.bind Ex.tok ?_
      rw [if_neg (by simp [hl])]
      refine Ex.bind (Ex.nextL hF (isBreakOrEOF_iff.2 (.inl hl))) ?_
      refine Ex.bind h2 ?_
      simp only [Bool.not_false, if_true]
      exact Ex.bind ex_truncate_self Ex.pure
    unfold parseFoldedLineBreak
    refine Ex.bind Ex.hasErrors ?_
    simp only [Bool.false_eq_true, if_false]
    refine Ex.bind (Ex.attemptN h1 (.inr (Free.of hl).1) rfl) ?_
    simp only [Bool.false_eq_true, if_false]
    refine Ex.bind ex_truncate_self (Ex.bind Ex.tok ?_)
    rw [if_neg (by simp [hl])]
    exact Ex.bind (Ex.nextL hF (isBreakOrEOF_iff.2 (.inl hl))) Ex.pure
  | @cons _ j i _ h1 h2 h3 h4 h5 =>
    have h6 : Ex W p k (parseTrimmed f ⟨m, .strict⟩ .blockIn b : M σ (Bool × Ind × Buf)) q k
        (true, ⟨m, .strict⟩, b ++ folding (i + 1)) := by
      unfold parseTrimmed
      refine Ex.bind Ex.hasErrors ?_
      simp only [Bool.false_eq_true, if_false]
      refine Ex.bind Ex.tok ?_
      rw [if_neg (by simp [hl])]
      refine Ex.bind (Ex.nextL hF (isBreakOrEOF_iff.2 (.inl hl))) ?_
      refine Ex.bind (ex_void hF h1 h2 h3 h4) ?_
      simp only [Bool.not_true, Bool.false_eq_true, if_false]
      rw [folding, ← replicate_snoc]
      exact Ex.bind (ex_voids_empties hF h5 hn) Ex.pure
    unfold parseFoldedLineBreak
    refine Ex.bind Ex.hasErrors ?_
    simp only [Bool.false_eq_true, if_false]
    refine Ex.bind (Ex.attemptT h6 rfl) ?_
    simp only [if_true]
    exact Ex.pure

theorem ex_foldedText (hF : Flat W) (h : FoldText W m p t c) :
    Ex W p k (parseFoldedText f ⟨m, .strict⟩ b : M σ (Bool × Ind × Buf)) c k (true, ⟨m, .strict⟩, b ++ t) := by
  have hs := h.sp
  cases h with
  | @mk t c _ h1 h2 h3 h4 h5 =>
    unfold parseFoldedText
    refine Ex.bind Ex.hasErrors ?_
    simp only [Bool.false_eq_true, if_false]
    refine Ex.bind (ex_indent_text hF hs) ?_
    simp only [Bool.not_true, Bool.false_eq_true, if_false]
    refine Ex.bind Ex.tok ?_
    rw [if_neg (by simp [h1, h2])]
    refine Ex.bind (Ex.next hF h3 h4) (Ex.bind (ex_rawLine hF hF.mode h5) ?_)
    rw [List.append_assoc]
    exact Ex.pure

theorem ex_foldedText_shortG (hG : Ground W) (hh : 0 < j → W.hold = false) (hw : Sp W p j) (hj : j < m) :
    Ex W p k (parseFoldedText f ⟨m, .strict⟩ b : M σ (Bool × Ind × Buf)) (p + j) k (false, ⟨m, .strict⟩, b) := by
  unfold parseFoldedText
  refine Ex.bind Ex.hasErrors ?_
  simp only [Bool.false_eq_true, if_false]
  refine Ex.bind (ex_indent_shortG hG hh hw hj) ?_
  simp only [Bool.not_false, if_true]
  exact Ex.pure

theorem ex_spacedText_shortG (hG : Ground W) (hh : 0 < j → W.hold = false) (hw : Sp W p j) (hj : j < m) :
    Ex W p k (parseSpacedText f ⟨m, .strict⟩ b : M σ (Bool × Ind × Buf)) (p + j) k (false, ⟨m, .strict⟩, b) := by
  unfold parseSpacedText
  refine Ex.bind Ex.hasErrors ?_
  simp only [Bool.false_eq_true, if_false]
  refine Ex.bind (ex_indent_shortG hG hh hw hj) ?_
  simp only [Bool.not_false, if_true]
  exact Ex.pure

theorem ex_truncate_tail {u : List Char} : Ex W p k (truncate b.length (b ++ u) : M σ Buf) p k b := by
  have := Ex.truncate (σ := σ) (W := W) (p := p) (k := k) (n := b.length) (b := b ++ u) (by simp)
  rw [take_append_self] at this
  exact this

/-- The lines after the first one. -/
theorem ex_foldedLoop {d : Nat} {o : Option Nat} (hF : Flat W) (hm : 1 ≤ m) (h : FoldLines W m c t d) (he : Ending W m d o q) :
    ∀ {f f0 : Nat} {b : List Char}, Ex W c k (tries f (fun x => do
      let r ← parseFoldedLineBreak f0 x.1 .blockIn x.2
      if !r.1 then do
        let b ← truncate x.2.length r.2.2
        pure (false, r.2.1, b)
      else do
        let l ← parseFoldedText f0 r.2.1 r.2.2
        if l.1 then pure (true, l.2) else do
        let b ← truncate x.2.length l.2.2
        pure (false, l.2.1, b)) (⟨m, .strict⟩, b) : M σ (Ind × Buf)) d k (⟨m, .strict⟩, b ++ t) := by
  induction h with
  | @more c i p c' d t u h1 h2 h3 _ ih =>
    intro f f0 b
    have e : b ++ (folding i ++ (t ++ u)) = b ++ folding i ++ t ++ u := by simp
    rw [e]
    refine Ex.triesGo (Ex.bind (ex_foldedLineBreak hF h1 h2 (h3.noVoid hF hm)) ?_) (fun f => ih he)
    simp only [Bool.not_true, Bool.false_eq_true, if_false]
    refine Ex.bind (ex_foldedText hF h3) ?_
    simp only [if_true]
    exact Ex.pure
  | @stop c =>
    intro f f0 b
    rw [List.append_nil]
    have hfree := he.free.1
    cases he with
    | @line i p _ h1 h2 h3 h4 =>
      obtain ⟨j, h5, h6, h7⟩ := h4.sp hm
      refine Ex.triesStopN (q := p + j) (Ex.bind (ex_foldedLineBreak hF h1 h3 (noVoid_short hF h5 h6 h7)) ?_) (.inr hfree)
      simp only [Bool.not_true, Bool.false_eq_true, if_false]
      refine Ex.bind (ex_foldedText_shortG hF.toGround (fun _ => hF.free) h5 h6) ?_
      simp only [Bool.false_eq_true, if_false]
      exact Ex.bind ex_truncate_tail Ex.pure
    | eof h1 h2 =>
      refine Ex.triesStopN (q := c) (Ex.bind (ex_foldedBreak_no (by simp [h1]) _ b) ?_) (.inr hfree)
      simp only [Bool.not_false, if_true]
      exact Ex.bind ex_truncate_self Ex.pure

theorem ex_foldedLines {d : Nat} {u : List Char} {o : Option Nat} (hF : Flat W) (hm : 1 ≤ m) (h1 : FoldText W m p t c) (h2 : FoldLines W m c u d)
    (he : Ending W m d o q) : 
    Ex W p k (parseFoldedLines f ⟨m, .strict⟩ b : M σ (Bool × Ind × Buf)) d k (true, ⟨m, .strict⟩, b ++ t ++ u) := by
  unfold parseFoldedLines
  refine Ex.bind Ex.hasErrors ?_
  simp only [Bool.false_eq_true, if_false]
  refine Ex.bind (ex_foldedText hF h1) ?_
  simp only [Bool.not_true, Bool.false_eq_true, if_false]
  exact Ex.bind (ex_foldedLoop hF hm h2 he) Ex.pure

/-- All lines which are not more indented. -/
theorem ex_sameLines {ind : Ind} {d : Nat} {u : List Char} {o : Option Nat} (hF : Flat W) (hm : 1 ≤ m) (hz : FirstInd m ind) (hw : Sp W p m)
    (h1 : FoldText W m p t c) (h2 : FoldLines W m c u d) (he : Ending W m d o q) :
    Ex W p k (parseSameLines f ind b : M σ (Bool × Ind × Buf)) d k (true, ⟨m, .strict⟩, b ++ t ++ u) := by
  unfold parseSameLines
  refine Ex.bind Ex.hasErrors ?_
  simp only [Bool.false_eq_true, if_false]
  refine Ex.bind (p' := p) (j := k) (a := (⟨m, .strict⟩, b)) ?_ ?_
  · refine Ex.triesStopN (q := p + m) (Ex.bind (ex_void_first hF hw hz (nonBreak_ne h1.starts).1) ?_) (.inr (Free.of (h1.sp 0 hm).1).1)
    simp only [Bool.false_eq_true, if_false]
    exact Ex.bind ex_truncate_self Ex.pure
  · refine Ex.bind ((ex_foldedLines hF hm h1 h2 he).attemptT rfl) ?_
    simp only [if_true]
    exact Ex.pure

/-- There are none after the end. -/
theorem ex_sameLines_no (hF : Flat W) (h : Voids W m p' i p) (hw : Sp W p j) (hj : j < m) (h1 : (W (p + j)).type ≠ .lineBreak) :
    Ex W p' k (parseSameLines f ⟨m, .strict⟩ b : M σ (Bool × Ind × Buf)) (p + j) k (false, ⟨m, .strict⟩, b) := by
  have key : ∀ (W : Toks), Ground W → (0 < j → W.hold = false) → Sp W p j → ∀ {b : List Char},
      Ex W p k (parseFoldedLines f ⟨m, .strict⟩ b : M σ (Bool × Ind × Buf)) (p + j) k (false, ⟨m, .strict⟩, b) ∧
      Ex W p k (parseSpacedLines f ⟨m, .strict⟩ b : M σ (Bool × Ind × Buf)) (p + j) k (false, ⟨m, .strict⟩, b) := by
    intro W hG hh hw b
    constructor
    · unfold parseFoldedLines
      refine Ex.bind Ex.hasErrors ?_
      simp only [Bool.false_eq_true, if_false]
      refine Ex.bind (ex_foldedText_shortG hG hh hw hj) ?_
      simp only [Bool.not_false, if_true]
      exact Ex.pure
    · unfold parseSpacedLines
      refine Ex.bind Ex.hasErrors ?_
      simp only [Bool.false_eq_true, if_false]
      refine Ex.bind (ex_spacedText_shortG hG hh hw hj) ?_
      simp only [Bool.not_false, if_true]
      exact Ex.pure
  unfold parseSameLines
  refine Ex.bind Ex.hasErrors ?_
  simp only [Bool.false_eq_true, if_false]
  refine Ex.bind (ex_voids_empties hF h (noVoid_short hF hw hj h1)) ?_
  refine Ex.bind (Ex.attemptJ hw (fun _ => (key W.held hF.held (by omega) hw).1) (fun _ => (key W hF.toGround (fun _ => hF.free) hw).1) rfl) ?_
  simp only [Bool.false_eq_true, if_false]
  refine Ex.bind ex_truncate_self (Ex.bind (key W hF.toGround (fun _ => hF.free) hw).2 ?_)
  simp only [Bool.false_eq_true, if_false]
  exact Ex.bind ex_truncate_tail Ex.pure

theorem ex_diffLines {ind : Ind} {d : Nat} {u : List Char} {o : Option Nat} (hF : Flat W) (hm : 1 ≤ m) (hz : FirstInd m ind) (hw : Sp W p m)
    (h1 : FoldText W m p t c) (h2 : FoldLines W m c u d) (he : Ending W m d o q) :
    Ex W p k (parseDiffLines f ind b : M σ (Bool × Ind × Buf)) d k (true, ⟨m, .strict⟩, b ++ t ++ u) := by
  unfold parseDiffLines
  refine Ex.bind Ex.hasErrors ?_
  simp only [Bool.false_eq_true, if_false]
  refine Ex.bind (ex_sameLines hF hm hz hw h1 h2 he) ?_
  simp only [Bool.not_true, Bool.false_eq_true, if_false]
  refine Ex.bind (p' := d) (j := k) (a := (⟨m, .strict⟩, b ++ t ++ u)) ?_ Ex.pure
  have hfree := he.free.1
  generalize b ++ t ++ u = b
  cases he with
  | @line i p _ h3 h4 h5 h6 =>
    obtain ⟨j, h7, h8, h9⟩ := h6.sp hm
    refine Ex.triesStopN (q := p + j) (Ex.bind Ex.tok ?_) (.inr hfree)
    rw [if_neg (by simp [h3])]
    refine Ex.bind (Ex.nextL hF (isBreakOrEOF_iff.2 (.inl h3))) (Ex.bind (ex_sameLines_no hF h5 h7 h8 h9) ?_)
    simp only [Bool.false_eq_true, if_false]
    exact Ex.bind ex_truncate_tail Ex.pure
  | eof h3 h4 =>
    refine Ex.triesStopN (q := d) (Ex.bind Ex.tok ?_) (.inr hfree)
    rw [if_pos (by simp [h3])]
    exact Ex.bind ex_truncate_self Ex.pure

theorem ex_foldedContent {ind : Ind} {d : Nat} {u : List Char} {o : Option Nat} {ch : Chomping} (hF : Flat W) (hm : 1 ≤ m)
    (hz : FirstInd m ind) (hc : ch = .clip ∨ ch = .strip ∨ ch = .keep) (hw : Sp W p m) (h1 : FoldText W m p t c) (h2 : FoldLines W m c u d)
    (h3 : Ending W m d o q) :
    Ex W p k (parseFoldedContent f ind ch : M σ Node) q k (.text (t ++ u ++ chomped ch o) .unknown) := by
  obtain ⟨i, r, h4, h5, h6⟩ := h3.tail
  unfold parseFoldedContent
  refine Ex.bind Ex.hasErrors ?_
  simp only [Bool.false_eq_true, if_false]
  refine Ex.bind Ex.getBuf ?_
  have h7 : Ex W p k (do
      let r ← parseDiffLines f ind []
      if r.1 then do
        let c ← parseChompedLast ch r.2.2
        pure (c.1, r.2.1, c.2)
      else pure r : M σ (Bool × Ind × Buf)) (d + 1) k
        (true, ⟨m, .strict⟩, t ++ u ++ (if ch = .strip ∨ o = none then [] else ['\n'])) := by
    refine Ex.bind (ex_diffLines hF hm hz hw h1 h2 h3) ?_
    simp only [if_true]
    exact Ex.bind (ex_chompedLast hF hc h3) Ex.pure
  refine Ex.bind (h7.attemptT rfl) ?_
  refine Ex.bind (ex_chompedEmpty (i := i) hF hm (by omega) hc h4 h5) ?_
  simp only [Bool.not_true, Bool.false_eq_true, if_false, if_true]
  have e : t ++ u ++ (if ch = .strip ∨ o = none then [] else ['\n']) ++ (if ch = .keep then List.replicate i '\n' else []) =
      t ++ u ++ chomped ch o := by
    subst h6
    rcases hc with rfl | rfl | rfl <;> cases o <;> simp [chomped]
  rw [e]
  exact Ex.bind Ex.resetAndPut Ex.pure

theorem ex_folded {z : Int} {N : Nat} {mo : IndMode} (hF : Flat W) (hm : 1 ≤ m) (hz : z + 1 = (N : Int)) (hN : N ≤ m) (h : Gt W N m p t q) :
    Ex W p k (parseFolded f ⟨z, mo⟩ : M σ Node) q k (.text t .unknown) := by
  cases h with
  | mk h1 h2 h3 h0 h4 h5 h6 h7 =>
    unfold parseFolded
    refine Ex.bind Ex.hasErrors ?_
    simp only [Bool.false_eq_true, if_false]
    refine Ex.bind Ex.tok ?_
    rw [if_neg (by simp [h1])]
    refine Ex.bind (Ex.next hF h2 (.of h1)) (Ex.bind (ex_blockHeader hF h3) ?_)
    exact ex_foldedContent hF hm (scalarInd_opens hz hN h0) h3.chomping h4 h5 h6 h7

/-! ### Block scalars -/

/-- A literal or a folded scalar. -/
inductive Lit (W : Toks) (N m : Nat) : Nat → List Char → Nat → Prop
  | bar {p q : Nat} {t : List Char} : Bar W N m p t q → Lit W N m p t q
  | folded {p q : Nat} {t : List Char} : Gt W N m p t q → Lit W N m p t q

theorem Lit.lt (h : Lit W N m p t q) : p < q := by
  cases h with
  | bar h => exact h.lt
  | folded h => exact h.lt

theorem Bar.type (h : Bar W N m p t q) : (W p).type = .literal := by
  cases h with
  | mk h => exact h

theorem Gt.type (h : Gt W N m p t q) : (W p).type = .folded := by
  cases h with
  | mk h => exact h

theorem Lit.type (h : Lit W N m p t q) : (W p).type = .literal ∨ (W p).type = .folded := by
  cases h with
  | bar h => cases h with | mk h => exact .inl h
  | folded h => cases h with | mk h => exact .inr h

theorem Lit.free (h : Lit W N m p t q) : Free (W p) := by
  rcases h.type with h | h <;> exact .of h

end Verif.Parser
