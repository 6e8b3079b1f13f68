import Verif.Lemmas.ParserRunQuote

/-!
Exact executions of the productions of the parser for literal scalars.
-/

set_option linter.unusedSimpArgs false
set_option linter.unusedSectionVars false

namespace Verif.Parser

open Verif.Token Verif.Lexer Verif.Ast Verif.Spec.Cursor

variable {σ α β : Type} [TokenStream σ] [StreamOk σ]
variable {W : Toks} {p q p' j n m f c r : Nat} {k l : Nat → Nat} {t b : List Char}

/-! ### Lines -/

/-- The tokens from `p` on, each of them followed by one read in raw mode, up to the end of the line on token `c`. -/
inductive RawLine (W : Toks) : Nat → List Char → Nat → Prop
  | stop {c : Nat} : isBreakOrEOF (W c) = true → RawLine W c [] c
  | tok {p c : Nat} {t : List Char} : isNonBreak (W p) = true → W.raw (p + 1) = true ∧ Free (W p) → RawLine W (p + 1) t c →
      RawLine W p ((W p).origin ++ t) c

/-- A line of text, indented by `m`. -/
structure TextLine (W : Toks) (m p : Nat) (t : List Char) (c : Nat) : Prop where
  sp : ∀ i, i < m → (W (p + i)).type = .space ∧ Calm W (p + i)
  starts : isNonBreak (W (p + m)) = true
  raw : RawLine W (p + m) t c

/-- Blank lines, of at most `m` spaces each. -/
inductive Voids (W : Toks) (m : Nat) : Nat → Nat → Nat → Prop
  | nil {p : Nat} : Voids W m p 0 p
  | cons {p j i q : Nat} : Sp W p j → j ≤ m → (W (p + j)).type = .lineBreak → (W (p + j)).origin = ['\n'] →
      Voids W m (p + j + 1) i q → Voids W m p (i + 1) q

/-- After the blank lines: a line which is less indented than the text, with content or a comment, or the end. -/
inductive Rest (W : Toks) (m : Nat) : Nat → Nat → Prop
  | line {p j : Nat} : Sp W p j → j < m → Begins (W (p + j)) → Rest W m p p
  | remark {p j q : Nat} : Sp W p j → j < m → (W (p + j)).type = .comment → Gap W p q → Rest W m p q
  | eof {p : Nat} : (W p).type = .eof → Rest W m p p

/-- The further lines of the text, from the end of a line on token `c` on, up to the end of the last one on token `d`. -/
inductive Lits (W : Toks) (m : Nat) : Nat → List Char → Nat → Prop
  | more {c i p c' d : Nat} {t u : List Char} : (W c).type = .lineBreak → (W c).origin = ['\n'] → Voids W m (c + 1) i p →
      TextLine W m p t c' → Lits W m c' u d → Lits W m c ('\n' :: (List.replicate i '\n' ++ (t ++ u))) d
  | stop {c : Nat} : Lits W m c [] c

/-- The end of the last line of the text on token `c`, with the blank lines after it, if there is a line break. -/
inductive Ending (W : Toks) (m : Nat) : Nat → Option Nat → Nat → Prop
  | line {c i p q : Nat} : (W c).type = .lineBreak → (W c).origin = ['\n'] → Voids W m (c + 1) i p → Rest W m p q →
      Ending W m c (some i) q
  | eof {c : Nat} : (W c).type = .eof → (W (c + 1)).type = .eof → Ending W m c none (c + 1)

/-- The token of a digit. -/
structure Digit (W : Toks) (p i : Nat) : Prop where
  type : (W p).type = .string
  origin : (W p).origin = [i.digitChar]
  calm : Calm W p
  pos : 1 ≤ i
  top : i ≤ 9

/-- The token of a chomping indicator. -/
structure Sign (W : Toks) (p : Nat) (ch : Chomping) : Prop where
  type : ch = .strip ∧ (W p).type = .stripChomping ∨ ch = .keep ∧ (W p).type = .keepChomping
  calm : Calm W p

/-- The signs of the header; `i` is the indentation, or 0 if there is none. -/
inductive Signs (W : Toks) : Nat → Chomping → Nat → Nat → Prop
  | none {p : Nat} : Signs W p .clip 0 p
  | sign {p : Nat} {ch : Chomping} : Sign W p ch → Signs W p ch 0 (p + 1)
  | digit {p i : Nat} : Digit W p i → Signs W p .clip i (p + 1)
  | before {p i : Nat} {ch : Chomping} : Digit W p i → Sign W (p + 1) ch → Signs W p ch i (p + 2)
  | behind {p i : Nat} {ch : Chomping} : Sign W p ch → Digit W (p + 1) i → Signs W p ch i (p + 2)

/-- The header: the signs, and its end on token `b`, from the token after the bar on. -/
inductive Header (W : Toks) : Nat → Chomping → Nat → Nat → Prop
  | mk {p q j b i : Nat} {ch : Chomping} : Signs W p ch i q → Sp W q j → Tail W (q + j) b → 0 < j ∨ b = q + j →
      (W b).type = .lineBreak → Header W p ch i b

/-- What is left of the line breaks at the end: the one which ends the last line, and `i` more. -/
def chomped : Chomping → Option Nat → List Char
  | .clip, some _ => ['\n']
  | .keep, some i => '\n' :: List.replicate i '\n'
  | _, _ => []

/-- A literal scalar: the bar on token `p`, and everything up to token `q`.  The text is indented by `m`, the collection around
by `N - 1`. -/
inductive Bar (W : Toks) (N m : Nat) : Nat → List Char → Nat → Prop
  | mk {p b c d q i : Nat} {o : Option Nat} {ch : Chomping} {t u : List Char} : (W p).type = .literal → Calm W p → Header W (p + 1) ch i b →
      i = 0 ∨ i + N = m + 1 →
      Sp W (b + 1) m → TextLine W m (b + 1) t c → Lits W m c u d → Ending W m d o q → Bar W N m p (t ++ u ++ chomped ch o) q

/-! ### Bounds -/

theorem RawLine.le (h : RawLine W p t c) : p ≤ c := by
  induction h with
  | stop => exact Nat.le_refl _
  | tok _ _ _ ih => omega

theorem RawLine.brk (h : RawLine W p t c) : isBreakOrEOF (W c) = true := by
  induction h with
  | stop h => exact h
  | tok _ _ _ ih => exact ih

theorem nonBreak_ne {t : Tok} (h : isNonBreak t = true) : t.type ≠ .lineBreak ∧ t.type ≠ .eof := by
  constructor <;> intro e <;> simp [isNonBreak, e, TokType.isNonBreak] at h

theorem TextLine.lt (h : TextLine W m p t c) : p + m < c := by
  have h1 := h.raw.le
  rcases Nat.lt_or_ge (p + m) c with h2 | h2
  · exact h2
  · have e : c = p + m := by omega
    have h3 := h.raw.brk
    rw [e] at h3
    have := nonBreak_ne h.starts
    rcases isBreakOrEOF_iff.1 h3 with h | h
    · exact absurd h this.1
    · exact absurd h this.2

theorem Voids.le {i : Nat} (h : Voids W m p i q) : p ≤ q := by
  induction h with
  | nil => exact Nat.le_refl _
  | cons _ _ _ _ _ ih => omega

theorem Rest.le (h : Rest W m p q) : p ≤ q := by
  cases h with
  | remark _ _ _ h => exact h.le
  | _ => exact Nat.le_refl _

theorem Lits.le {d : Nat} (h : Lits W m c t d) : c ≤ d := by
  induction h with
  | more _ _ h1 h2 _ ih => have := h1.le; have := h2.lt; omega
  | stop => exact Nat.le_refl _

theorem Ending.lt {o : Option Nat} (h : Ending W m c o q) : c < q := by
  cases h with
  | line _ _ h1 h2 => have := h1.le; have := h2.le; omega
  | eof => omega

theorem Header.le {ch : Chomping} {b : Nat} {i : Nat} (h : Header W p ch i b) : p ≤ b := by
  cases h with
  | mk h1 _ h2 => have := h2.le; cases h1 <;> omega

theorem Bar.lt (h : Bar W N m p t q) : p < q := by
  cases h with
  | mk _ _ h1 _ _ h2 h3 h4 => have := h1.le; have := h2.lt; have := h3.le; have := h4.lt; omega

/-! ### Steps -/

theorem ex_rawTake (hG : Ground W) (hh : W.hold = false) (hm : W.mode = true) (h : RawLine W p t c) : ∀ {f : Nat} {b : List Char},
    Ex W p k (takeWhile f isNonBreak b : M σ Buf) c k (b ++ t) := by
  induction h with
  | stop h =>
    intro f b
    rw [List.append_nil]
    refine Ex.loopStop ?_
    refine Ex.bind Ex.tok ?_
    rw [if_neg (by simp [isNonBreak_false h])]
    exact Ex.pure
  | @tok p c t h1 h2 h3 ih =>
    intro f b
    refine Ex.loopGo (p' := p + 1) (j := k) (y := b ++ (W p).origin) ?_ (fun f => ?_)
    · refine Ex.bind Ex.tok ?_
      rw [if_pos h1]
      exact Ex.bind (Ex.nextG hG (show W.raw (p + 1) = W.mode by rw [h2.1, hm]) h2.2 (by simp [hh])) Ex.pure
    · rw [← List.append_assoc]
      exact ih

theorem RawLine.inMode {v : Bool} (h : RawLine W p t c) : RawLine (W.inMode v) p t c := by
  induction h with
  | stop h => exact .stop h
  | tok h1 h2 _ ih => exact .tok h1 h2 ih

theorem ex_rawLine (hF : Flat W) (hm : W.mode = false) (h : RawLine W p t c) :
    Ex W p k (rawLine f b : M σ Buf) c k (b ++ t) := by
  have h1 := Ex.inMode (ex_rawTake (σ := σ) (W := W.inMode true) (f := f) (b := b) (k := k)
    ⟨hF.seq, hF.map, hF.fin, hF.inj⟩ hF.free rfl h.inMode)
  rw [hm] at h1
  exact h1

theorem ex_atMost (hG : Ground W) (hh : 0 < j → W.hold = false) (hw : Sp W p j) (h : j ≤ n) :
    Ex W p k (upToSpaces n : M σ Unit) (p + j) k () := ex_upToSpacesG hG hh hw h

theorem ex_fewerG (hG : Ground W) (hh : 0 < j → W.hold = false) (hw : Sp W p j) (h : j < m) : Ex W p k (parseIndentLessThan (m : Int) : M σ Bool) (p + j) k true := by
  unfold parseIndentLessThan parseBorderedIndent
  refine Ex.bind Ex.hasErrors ?_
  rw [if_neg (by simp; omega)]
  exact Ex.bind (ex_atMost hG hh hw (by omega)) Ex.pure

theorem ex_fewer (hF : Flat W) (hw : Sp W p j) (h : j < m) : Ex W p k (parseIndentLessThan (m : Int) : M σ Bool) (p + j) k true :=
  ex_fewerG hF.toGround (fun _ => hF.free) hw h

theorem ex_lessEqualG (hG : Ground W) (hh : 0 < j → W.hold = false) (hw : Sp W p j) (h : j ≤ m) : Ex W p k (parseIndentLessThanOrEqual (m : Int) : M σ Bool) (p + j) k true := by
  unfold parseIndentLessThanOrEqual parseBorderedIndent
  refine Ex.bind Ex.hasErrors ?_
  rw [if_neg (by simp)]
  exact Ex.bind (ex_atMost hG hh hw (by omega)) Ex.pure

theorem ex_lessEqual (hF : Flat W) (hw : Sp W p j) (h : j ≤ m) : Ex W p k (parseIndentLessThanOrEqual (m : Int) : M σ Bool) (p + j) k true :=
  ex_lessEqualG hF.toGround (fun _ => hF.free) hw h

/-- The indentation of a line of text, which may go on with spaces. -/
theorem ex_indent_text (hF : Flat W) (h : ∀ i, i < m → (W (p + i)).type = .space ∧ Calm W (p + i)) :
    Ex W p k (parseIndent f ⟨m, .strict⟩ : M σ (Bool × Ind)) (p + m) k (true, ⟨m, .strict⟩) := by
  refine Ex.bind (a := true) ?_ Ex.pure
  unfold parseIndentStrict
  refine Ex.bind Ex.hasErrors ?_
  rw [if_neg (by simp)]
  exact ex_spaces hF (fun i hi => h i (by rw [Int.toNat_natCast] at hi; omega))

/-- A blank line. -/
theorem ex_void (hF : Flat W) (hw : Sp W p j) (hj : j ≤ m) (h1 : (W (p + j)).type = .lineBreak) (h2 : (W (p + j)).origin = ['\n']) :
    Ex W p k (parseEmpty f ⟨m, .strict⟩ .blockIn b : M σ (Bool × Ind × Buf)) (p + j + 1) k (true, ⟨m, .strict⟩, b ++ ['\n']) := by
  have key : ∀ q ok, Ex W q k (if ok then pure true else parseIndentLessThan (m : Int) : M σ Bool) (p + j) k true →
      Ex W p k (attempt Prod.fst (parseLinePrefix f ⟨(m : Int), .strict⟩ .blockIn) : M σ (Bool × Ind)) q k (ok, ⟨m, .strict⟩) →
      Ex W p k (parseEmpty f ⟨m, .strict⟩ .blockIn b : M σ (Bool × Ind × Buf)) (p + j + 1) k (true, ⟨m, .strict⟩, b ++ ['\n']) := by
    intro q ok h3 h4
    unfold parseEmpty
    refine Ex.bind Ex.hasErrors ?_
    simp only [Bool.false_eq_true, if_false]
    refine Ex.bind h4 ?_
    have h5 : Ex W (p + j) k (do
        let t ← tok
        if t.type ≠ .lineBreak then pure (false, ⟨m, .strict⟩, b) else do
        next
        pure (true, ⟨m, .strict⟩, b ++ t.origin) : M σ (Bool × Ind × Buf)) (p + j + 1) k (true, ⟨m, .strict⟩, b ++ ['\n']) := by
      refine Ex.bind Ex.tok ?_
      rw [if_neg (by simp [h1]), h2]
      exact Ex.bind (Ex.nextL hF (by simp [isBreakOrEOF, h1])) Ex.pure
    cases ok with
    | true => exact Ex.bind h3 h5
    | false => exact Ex.bind h3 h5
  rcases Nat.lt_or_ge j m with hl | hl
  · refine key p false (ex_fewer hF hw hl) (Ex.attemptN (q := p + j) ?_ (.inr ?_) rfl)
    · exact ex_indent_short (f := f) hF hw hl
    · cases j with
      | zero => exact (Free.of h1).1
      | succ j => exact (Free.of hw.head).1
  · obtain rfl : j = m := by omega
    refine key (p + j) true Ex.pure (Ex.attemptT ?_ rfl)
    exact ex_indent_strict (f := f) hF hw (Nat.le_refl _)

theorem ex_void_of {q' : Nat} {ok : Bool} {ind : Ind}
    (h4 : Ex W p k (attempt Prod.fst (parseLinePrefix f ind .blockIn) : M σ (Bool × Ind)) q k (ok, ⟨m, .strict⟩))
    (h3 : Ex W q k (if ok then pure true else parseIndentLessThan (m : Int) : M σ Bool) q' k true)
    (h1 : (W q').type ≠ .lineBreak) : 
    Ex W p k (parseEmpty f ind .blockIn b : M σ (Bool × Ind × Buf)) q' k (false, ⟨m, .strict⟩, b) := by
  unfold parseEmpty
  refine Ex.bind Ex.hasErrors ?_
  simp only [Bool.false_eq_true, if_false]
  refine Ex.bind h4 ?_
  have h5 : Ex W q' k (do
      let t ← tok
      if t.type ≠ .lineBreak then pure (false, ⟨m, .strict⟩, b) else do
      next
      pure (true, ⟨m, .strict⟩, b ++ t.origin) : M σ (Bool × Ind × Buf)) q' k (false, ⟨m, .strict⟩, b) := by
    refine Ex.bind Ex.tok ?_
    rw [if_pos h1]
    exact Ex.pure
  cases ok with
  | true => exact Ex.bind h3 h5
  | false => exact Ex.bind h3 h5

/-- A line of text is not blank. -/
theorem ex_void_text (hF : Flat W) (h : ∀ i, i < m → (W (p + i)).type = .space ∧ Calm W (p + i)) (h1 : (W (p + m)).type ≠ .lineBreak) :
    Ex W p k (parseEmpty f ⟨m, .strict⟩ .blockIn b : M σ (Bool × Ind × Buf)) (p + m) k (false, ⟨m, .strict⟩, b) :=
  ex_void_of (ok := true) (Ex.attemptT (ex_indent_text (f := f) hF h) rfl) Ex.pure h1

/-- Neither is the first one, which sets the indentation. -/
theorem ex_indent_first {z : Int} (hF : Flat W) (hw : Sp W p m) (hz : z ≤ m) :
    Ex W p k (parseIndent f ⟨z, .lowerBound⟩ : M σ (Bool × Ind)) (p + m) k (true, ⟨m, .strict⟩) := by
  rcases Int.lt_or_le z 0 with h | h
  · refine Ex.bind (a := some (m : Int)) ?_ Ex.pure
    unfold parseIndentLowerBound
    refine Ex.bind Ex.hasErrors ?_
    simp only [Bool.false_eq_true, if_false]
    rw [show z.toNat = 0 from by omega, show max z 0 = 0 from by omega]
    refine Ex.bind (ex_spaces hF (n := 0) (fun i hi => by omega)) ?_
    simp only [Bool.not_true, Bool.false_eq_true, if_false]
    have h1 := ex_countSpacesG (σ := σ) (k := k) (f := f) hF.toGround (c := 0) (fun _ => hF.free) hw
    rw [Int.zero_add] at h1
    exact Ex.bind h1 Ex.pure
  · obtain ⟨n, rfl⟩ : ∃ n : Nat, z = n := ⟨z.toNat, by omega⟩
    exact ex_indent_lower hF hw (by omega)

/-- The indentation before the first line: a lower bound, or the one which is written behind the bar. -/
def FirstInd (m : Nat) (ind : Ind) : Prop := (∃ z : Int, z ≤ m ∧ ind = ⟨z, .lowerBound⟩) ∨ ind = ⟨m, .strict⟩

theorem ex_void_first {ind : Ind} (hF : Flat W) (hw : Sp W p m) (hi : FirstInd m ind) (h1 : (W (p + m)).type ≠ .lineBreak) :
    Ex W p k (parseEmpty f ind .blockIn b : M σ (Bool × Ind × Buf)) (p + m) k (false, ⟨m, .strict⟩, b) := by
  rcases hi with ⟨z, hz, rfl⟩ | rfl
  · exact ex_void_of (ok := true) (Ex.attemptT (ex_indent_first (f := f) hF hw hz) rfl) Ex.pure h1
  · exact ex_void_text hF hw.1 h1

/-- A line which is less indented is not blank either. -/
theorem ex_void_shortG (hG : Ground W) (hh : 0 < j → W.hold = false) (hw : Sp W p j) (hj : j < m) (h1 : (W (p + j)).type ≠ .lineBreak) :
    Ex W p k (parseEmpty f ⟨m, .strict⟩ .blockIn b : M σ (Bool × Ind × Buf)) (p + j) k (false, ⟨m, .strict⟩, b) :=
  ex_void_of (ok := false) (Ex.attemptJ hw (fun _ => ex_indent_shortG (f := f) hG.held (by omega) hw hj)
    (fun _ => ex_indent_shortG (f := f) hG hh hw hj) rfl) (ex_fewerG hG hh hw hj) h1

theorem ex_void_short (hF : Flat W) (hw : Sp W p j) (hj : j < m) (h1 : (W (p + j)).type ≠ .lineBreak) :
    Ex W p k (parseEmpty f ⟨m, .strict⟩ .blockIn b : M σ (Bool × Ind × Buf)) (p + j) k (false, ⟨m, .strict⟩, b) :=
  ex_void_shortG hF.toGround (fun _ => hF.free) hw hj h1

/-- The same as an attempt. -/
theorem ex_void_short_try (hF : Flat W) (hw : Sp W p j) (hj : j < m) (h1 : (W (p + j)).type ≠ .lineBreak) :
    Ex W p k (attempt Prod.fst (parseEmpty f ⟨m, .strict⟩ .blockIn b) : M σ (Bool × Ind × Buf)) p k (false, ⟨m, .strict⟩, b) :=
  Ex.attemptJ hw (fun _ => ex_void_shortG hF.held (by omega) hw hj h1) (fun _ => ex_void_short hF hw hj h1) rfl

theorem ex_void_text_try (hF : Flat W) (hm : 1 ≤ m) (h : ∀ i, i < m → (W (p + i)).type = .space ∧ Calm W (p + i))
    (h1 : (W (p + m)).type ≠ .lineBreak) :
    Ex W p k (attempt Prod.fst (parseEmpty f ⟨m, .strict⟩ .blockIn b) : M σ (Bool × Ind × Buf)) p k (false, ⟨m, .strict⟩, b) :=
  Ex.attemptN (ex_void_text hF h h1) (.inr (Free.of (h 0 hm).1).1) rfl

theorem replicate_snoc {i : Nat} : b ++ ['\n'] ++ List.replicate i '\n' = b ++ List.replicate (i + 1) '\n' := by
  rw [List.append_assoc]
  rfl

/-- The blank lines in front of something else. -/
theorem ex_voids {i : Nat} (hF : Flat W) (h : Voids W m p i q) : ∀ {f f0 : Nat} {b : List Char},
    (∀ b, Ex W q k (attempt Prod.fst (parseEmpty f0 ⟨m, .strict⟩ .blockIn b) : M σ (Bool × Ind × Buf)) q k (false, ⟨m, .strict⟩, b)) →
    Ex W p k (tries f (fun x => parseEmpty f0 x.1 .blockIn x.2) (⟨m, .strict⟩, b) : M σ (Ind × Buf)) q k
      (⟨m, .strict⟩, b ++ List.replicate i '\n') := by
  induction h with
  | nil =>
    intro f f0 b hn
    rw [List.replicate, List.append_nil]
    exact Ex.loopStop (hn b)
  | cons h1 h2 h3 h4 _ ih =>
    intro f f0 b hn
    rw [← replicate_snoc]
    exact Ex.triesGo (ex_void hF h1 h2 h3 h4) (fun f => ih hn)

/-- The same where they are kept. -/
theorem ex_voids_kept {i : Nat} (hF : Flat W) (h : Voids W m p i q) (hw : Sp W q j) (hj : j < m) (hb : (W (q + j)).type ≠ .lineBreak) :
    ∀ {f f0 : Nat} {b : List Char}, Ex W p k (tries f (fun x => do
      let r ← parseEmpty f0 x.1 .blockIn x.2
      if r.1 then pure (true, r.2) else do
      let b ← truncate x.2.length r.2.2
      pure (false, r.2.1, b)) (⟨m, .strict⟩, b) : M σ (Ind × Buf)) q k (⟨m, .strict⟩, b ++ List.replicate i '\n') := by
  induction h with
  | @nil p =>
    intro f f0 b
    rw [List.replicate, List.append_nil]
    refine Ex.triesStopJ (q := p + j) hw (fun e => ?_) (fun _ => ?_)
    · refine Ex.bind (ex_void_shortG hF.held (by omega) hw hj hb) ?_
      simp only [Bool.false_eq_true, if_false]
      exact Ex.bind ex_truncate_self Ex.pure
    · refine Ex.bind (ex_void_short hF hw hj hb) ?_
      simp only [Bool.false_eq_true, if_false]
      exact Ex.bind ex_truncate_self Ex.pure
  | cons h1 h2 h3 h4 _ ih =>
    intro f f0 b
    rw [← replicate_snoc]
    refine Ex.triesGo (Ex.bind (ex_void hF h1 h2 h3 h4) ?_) (fun f => ih hw hb)
    exact Ex.pure

theorem Rest.sp (h : Rest W m p q) (hm : 1 ≤ m) : ∃ j, Sp W p j ∧ j < m ∧ (W (p + j)).type ≠ .lineBreak := by
  cases h with
  | line h1 h2 h3 => exact ⟨_, h1, h2, h3.2.2.1⟩
  | remark h1 h2 h3 => exact ⟨_, h1, h2, by simp [h3]⟩
  | eof h => exact ⟨0, Sp.zero (by simp [h]) (by simp [h]), hm, by simp [h]⟩

/-- The first line. -/
theorem ex_literalText_first {ind : Ind} (hF : Flat W) (hm : W.mode = false) (h1 : 1 ≤ m) (hw : Sp W p m) (hz : FirstInd m ind) (h : TextLine W m p t c) :
    Ex W p k (parseLiteralText f ind b : M σ (Bool × Ind × Buf)) c k (true, ⟨m, .strict⟩, b ++ t) := by
  unfold parseLiteralText
  refine Ex.bind Ex.hasErrors ?_
  simp only [Bool.false_eq_true, if_false]
  refine Ex.bind (Ex.triesStopN (ex_void_first hF hw hz (nonBreak_ne h.starts).1) (.inr (Free.of (h.sp 0 h1).1).1)) ?_
  refine Ex.bind (ex_indent_text hF h.sp) ?_
  simp only [Bool.not_true, Bool.false_eq_true, if_false]
  refine Ex.bind Ex.tok ?_
  rw [if_neg (by simp [h.starts])]
  exact Ex.bind (ex_rawLine hF hm h.raw) Ex.pure

/-- A further line. -/
theorem ex_literalText {i : Nat} (hF : Flat W) (hm : W.mode = false) (h1 : 1 ≤ m) (hb : Voids W m p' i p) (h : TextLine W m p t c) :
    Ex W p' k (parseLiteralText f ⟨m, .strict⟩ b : M σ (Bool × Ind × Buf)) c k (true, ⟨m, .strict⟩, b ++ List.replicate i '\n' ++ t) := by
  unfold parseLiteralText
  refine Ex.bind Ex.hasErrors ?_
  simp only [Bool.false_eq_true, if_false]
  refine Ex.bind (ex_voids hF hb (fun _ => ex_void_text_try hF h1 h.sp (nonBreak_ne h.starts).1)) ?_
  refine Ex.bind (ex_indent_text hF h.sp) ?_
  simp only [Bool.not_true, Bool.false_eq_true, if_false]
  refine Ex.bind Ex.tok ?_
  rw [if_neg (by simp [h.starts])]
  exact Ex.bind (ex_rawLine hF hm h.raw) Ex.pure

/-- No further line. -/
theorem ex_literalText_no {i : Nat} (hF : Flat W) (hb : Voids W m p' i p) (hw : Sp W p j) (hj : j < m) (h1 : (W (p + j)).type ≠ .lineBreak) :
    Ex W p' k (parseLiteralText f ⟨m, .strict⟩ b : M σ (Bool × Ind × Buf)) (p + j) k (false, ⟨m, .strict⟩, b ++ List.replicate i '\n') := by
  unfold parseLiteralText
  refine Ex.bind Ex.hasErrors ?_
  simp only [Bool.false_eq_true, if_false]
  refine Ex.bind (ex_voids hF hb (fun _ => ex_void_short_try hF hw hj h1)) ?_
  refine Ex.bind (ex_indent_short hF hw hj) ?_
  simp only [Bool.not_false, if_true]
  exact Ex.pure

theorem ex_literalNext {i : Nat} (hF : Flat W) (hm : W.mode = false) (h0 : 1 ≤ m) (h1 : (W q).type = .lineBreak) (h2 : (W q).origin = ['\n'])
    (hb : Voids W m (q + 1) i p) (h : TextLine W m p t c) :
    Ex W q k (parseLiteralNext f ⟨m, .strict⟩ b : M σ (Bool × Ind × Buf)) c k
      (true, ⟨m, .strict⟩, b ++ '\n' :: (List.replicate i '\n' ++ t)) := by
  unfold parseLiteralNext
  refine Ex.bind Ex.hasErrors ?_
  simp only [Bool.false_eq_true, if_false]
  refine Ex.bind Ex.tok ?_
  rw [if_neg (by simp [h1]), h2]
  refine Ex.bind (Ex.nextL hF (by simp [isBreakOrEOF, h1])) (Ex.bind (ex_literalText hF hm h0 hb h) ?_)
  simp only [Bool.not_true, Bool.false_eq_true, if_false, List.append_assoc, List.cons_append, List.nil_append]
  exact Ex.pure

theorem take_append_self {u : List Char} : (b ++ u).take b.length = b := by simp

theorem Ending.free {o : Option Nat} (h : Ending W m c o q) : Free (W c) := by
  cases h with
  | line h => exact .of h
  | eof h => exact .of h

theorem ex_literalNext_no {o : Option Nat} (hF : Flat W) (hm : 1 ≤ m) (h : Ending W m c o q) : ∃ r,
    Ex W c k (parseLiteralNext f ⟨m, .strict⟩ b : M σ (Bool × Ind × Buf)) r k (false, ⟨m, .strict⟩, b) := by
  cases h with
  | line h1 h2 h3 h4 =>
    rename_i i p
    obtain ⟨j, h5, h6, h7⟩ := h4.sp hm
    refine ⟨p + j, ?_⟩
    unfold parseLiteralNext
    refine Ex.bind Ex.hasErrors ?_
    simp only [Bool.false_eq_true, if_false]
    refine Ex.bind Ex.tok ?_
    rw [if_neg (by simp [h1]), h2]
    refine Ex.bind (Ex.nextL hF (by simp [isBreakOrEOF, h1])) (Ex.bind (ex_literalText_no hF h3 h5 h6 h7) ?_)
    simp only [Bool.not_false, if_true]
    have := Ex.truncate (σ := σ) (W := W) (p := p + j) (k := k) (n := b.length) (b := b ++ ['\n'] ++ List.replicate i '\n') (by simp)
    rw [List.append_assoc, take_append_self] at this
    rw [List.append_assoc]
    exact Ex.bind this Ex.pure
  | eof h1 h2 =>
    refine ⟨c, ?_⟩
    unfold parseLiteralNext
    refine Ex.bind Ex.hasErrors ?_
    simp only [Bool.false_eq_true, if_false]
    refine Ex.bind Ex.tok ?_
    rw [if_pos (by simp [h1])]
    exact Ex.pure

theorem ex_literalLines {d : Nat} {o : Option Nat} (hF : Flat W) (hm : W.mode = false) (h1 : 1 ≤ m) (h : Lits W m c t d) (he : Ending W m d o q) :
    ∀ {f f0 : Nat} {b : List Char}, Ex W c k (tries f (fun x => do
      let r ← parseLiteralNext f0 x.1 x.2
      if r.1 then pure (true, r.2) else do
      let b ← truncate x.2.length r.2.2
      pure (false, r.2.1, b)) (⟨m, .strict⟩, b) : M σ (Ind × Buf)) d k (⟨m, .strict⟩, b ++ t) := by
  induction h with
  | @more c i p c' d t u h5 h2 h3 h4 _ ih =>
    intro f f0 b
    have e : b ++ '\n' :: (List.replicate i '\n' ++ (t ++ u)) = (b ++ '\n' :: (List.replicate i '\n' ++ t)) ++ u := by simp
    rw [e]
    refine Ex.triesGo (Ex.bind (ex_literalNext hF hm h1 h5 h2 h3 h4) ?_) (fun f => ih he)
    exact Ex.pure
  | @stop c =>
    intro f f0 b
    obtain ⟨r, hr⟩ := ex_literalNext_no (σ := σ) (k := k) (f := f0) (b := b) hF h1 he
    rw [List.append_nil]
    refine Ex.triesStopN (q := r) (Ex.bind hr ?_) (.inr he.free.1)
    simp only [Bool.false_eq_true, if_false]
    have := Ex.truncate (σ := σ) (W := W) (p := r) (k := k) (n := b.length) (b := b) (Nat.le_refl _)
    rw [List.take_length] at this
    exact Ex.bind this Ex.pure

/-! ### The end -/

theorem ex_chompedLast {o : Option Nat} {ch : Chomping} (hF : Flat W) (hc : ch = .clip ∨ ch = .strip ∨ ch = .keep) (h : Ending W m c o q) :
    Ex W c k (parseChompedLast ch b : M σ (Bool × Buf)) (c + 1) k (true, b ++ (if ch = .strip ∨ o = none then [] else ['\n'])) := by
  unfold parseChompedLast
  refine Ex.bind Ex.hasErrors ?_
  simp only [Bool.false_eq_true, if_false]
  refine Ex.bind Ex.tok ?_
  cases h with
  | line h1 h2 =>
    have hn : Ex W c k (next : M σ Unit) (c + 1) k () := Ex.nextL hF (by simp [isBreakOrEOF, h1])
    rcases hc with rfl | rfl | rfl
    · simp only [h1, h2, if_true]
      exact Ex.bind hn Ex.pure
    · simp only [isBreakOrEOF, h1, Bool.true_or, decide_true, Bool.not_true, Bool.false_eq_true, if_false, true_or, if_true, List.append_nil]
      exact Ex.bind hn Ex.pure
    · simp only [h1, h2, if_true]
      exact Ex.bind hn Ex.pure
  | eof h1 =>
    have hn : Ex W c k (next : M σ Unit) (c + 1) k () := Ex.nextL hF (by simp [isBreakOrEOF, h1])
    rcases hc with rfl | rfl | rfl
    · simp only [h1, if_true, or_true, List.append_nil]
      exact Ex.bind hn Ex.pure
    · simp only [isBreakOrEOF, h1, Bool.or_true, decide_true, Bool.not_true, Bool.false_eq_true, if_false, or_true, if_true, List.append_nil]
      exact Ex.bind hn Ex.pure
    · simp only [h1, if_true, or_true, List.append_nil]
      exact Ex.bind hn Ex.pure

theorem ex_trailComments_noG {mo : IndMode} (hG : Ground W) (hh : 0 < j → W.hold = false) (hw : Sp W p j) (hj : j < m) (h : (W (p + j)).type ≠ .comment) :
    Ex W p k (parseTrailComments f ⟨m, mo⟩ : M σ Bool) (p + j) k false := by
  unfold parseTrailComments
  refine Ex.bind Ex.hasErrors ?_
  simp only [Bool.false_eq_true, if_false]
  refine Ex.bind (ex_fewerG hG hh hw hj) ?_
  simp only [Bool.not_true, Bool.false_eq_true, if_false]
  refine Ex.bind (ex_commentText_no h) ?_
  simp only [Bool.not_false, if_true]
  exact Ex.pure

theorem ex_trailComments_no {mo : IndMode} (hF : Flat W) (hw : Sp W p j) (hj : j < m) (h : (W (p + j)).type ≠ .comment) :
    Ex W p k (parseTrailComments f ⟨m, mo⟩ : M σ Bool) (p + j) k false :=
  ex_trailComments_noG hF.toGround (fun _ => hF.free) hw hj h

theorem ex_commentText (hF : Flat W) (h1 : (W p).type = .comment) (h : Tail W p c) : Ex W p k (parseCommentText f : M σ Bool) c k true := by
  cases h with
  | none h => rcases isBreakOrEOF_iff.1 h with h | h <;> simp [h] at h1
  | text h1 hc h2 h3 h4 =>
    unfold parseCommentText
    refine Ex.bind Ex.hasErrors ?_
    simp only [Bool.false_eq_true, if_false]
    refine Ex.bind Ex.tok ?_
    rw [if_neg (by simp [h1])]
    refine Ex.bind (Ex.next hF hc (.of h1)) (Ex.bind (ex_skipNonBreak hF (i := c - (p + 1)) (by omega) ?_ h4) Ex.pure)
    intro i h5 h6
    exact h3 i (by omega) h6

theorem ex_trailComments_of {mo : IndMode} (hF : Flat W) (hw : Sp W p j) (hj : j < m) (h : (W (p + j)).type = .comment) (ht : Tail W (p + j) c)
    (hl : Ex W (c + 1) k (commentLines f : M σ Unit) q k ()) :
    Ex W p k (parseTrailComments f ⟨m, mo⟩ : M σ Bool) q k true := by
  unfold parseTrailComments
  refine Ex.bind Ex.hasErrors ?_
  simp only [Bool.false_eq_true, if_false]
  refine Ex.bind (ex_fewer hF hw hj) ?_
  simp only [Bool.not_true, Bool.false_eq_true, if_false]
  refine Ex.bind (ex_commentText hF h ht) ?_
  simp only [Bool.not_true, Bool.false_eq_true, if_false]
  refine Ex.bind Ex.tok ?_
  rw [if_neg (by simp [ht.brk])]
  exact Ex.bind (Ex.nextL hF ht.brk) (Ex.bind hl Ex.pure)

theorem ex_rest {mo : IndMode} (hF : Flat W) (hm : 1 ≤ m) (hp : 1 ≤ p) (h : Rest W m p q) :
    ∃ b, Ex W p k (attempt id (parseTrailComments f ⟨m, mo⟩) : M σ Bool) q k b := by
  cases h with
  | line h1 h2 h3 => exact ⟨false, Ex.attemptJ h1 (fun _ => ex_trailComments_noG hF.held (by omega) h1 h2 h3.2.2.2.2.1)
      (fun _ => ex_trailComments_no hF h1 h2 h3.2.2.2.2.1) rfl⟩
  | eof h =>
    exact ⟨false, Ex.attemptN (ex_trailComments_no (j := 0) hF (Sp.zero (by simp [h]) (by simp [h])) hm (by simp [h]))
      (.inr (Free.of h).1) rfl⟩
  | remark h1 h2 h3 h4 =>
    refine ⟨true, Ex.attemptT ?_ rfl⟩
    cases h4 with
    | here h5 h6 =>
      obtain rfl := h5.unique h1
      exact absurd h3 h6.2.2.2.2.1
    | line h5 h6 h7 h8 =>
      obtain rfl := h5.unique h1
      have := h6.le
      exact ex_trailComments_of hF h1 h2 h3 h6 (ex_commentLines hF h8 (by omega) (solW_break (by omega) h7) _)
    | last h5 h6 h7 h8 =>
      obtain rfl := h5.unique h1
      have := h6.le
      exact ex_trailComments_of hF h1 h2 h3 h6 (ex_commentLines_end hF (by omega) h7 h8)

theorem ex_stripLines {i : Nat} (hF : Flat W) (h : Voids W m p i q) (hq : Sp W q j) (hj : j < m) (h1 : (W (q + j)).type ≠ .lineBreak) : ∀ {f : Nat},
    Ex W p k (tries f (fun u => do
      let i ← parseIndentLessThanOrEqual (m : Int)
      if !i then pure (false, u) else
      let t ← tok
      if t.type ≠ .lineBreak then pure (false, u) else do
      next
      pure (true, u)) () : M σ Unit) q k () := by
  induction h with
  | nil =>
    intro f
    rename_i p
    refine Ex.triesStopJ (q := p + j) hq (fun e => Ex.bind (ex_lessEqualG hF.held (by omega) hq (by omega)) ?_)
      (fun _ => Ex.bind (ex_lessEqual hF hq (by omega)) ?_)
    all_goals
      simp only [Bool.not_true, Bool.false_eq_true, if_false]
      refine Ex.bind Ex.tok ?_
      rw [if_pos h1]
      exact Ex.pure
  | cons h3 h4 h5 h6 _ ih =>
    intro f
    refine Ex.triesGo (Ex.bind (ex_lessEqual hF h3 h4) ?_) (fun f => ih hq h1)
    simp only [Bool.not_true, Bool.false_eq_true, if_false]
    refine Ex.bind Ex.tok ?_
    rw [if_neg (by simp [h5])]
    exact Ex.bind (Ex.nextL hF (by simp [isBreakOrEOF, h5])) Ex.pure

theorem ex_stripEmpty {i : Nat} {mo : IndMode} (hF : Flat W) (hm : 1 ≤ m) (hp : 1 ≤ p) (h : Voids W m p i r) (hr : Rest W m r q) :
    Ex W p k (parseStripEmpty f ⟨m, mo⟩ : M σ Bool) q k true := by
  obtain ⟨j, h1, h2, h3⟩ := hr.sp hm
  have := h.le
  obtain ⟨b, hb⟩ := ex_rest (σ := σ) (k := k) (f := f) (mo := mo) hF hm (show 1 ≤ r by omega) hr
  unfold parseStripEmpty
  refine Ex.bind Ex.hasErrors ?_
  simp only [Bool.false_eq_true, if_false]
  exact Ex.bind (ex_stripLines hF h h1 h2 h3) (Ex.bind hb Ex.pure)

theorem ex_keepEmpty {i : Nat} (hF : Flat W) (hm : 1 ≤ m) (hp : 1 ≤ p) (h : Voids W m p i r) (hr : Rest W m r q) :
    Ex W p k (parseKeepEmpty f ⟨m, .strict⟩ b : M σ (Bool × Ind × Buf)) q k (true, ⟨m, .strict⟩, b ++ List.replicate i '\n') := by
  obtain ⟨j, h1, h2, h3⟩ := hr.sp hm
  have := h.le
  obtain ⟨v, hb⟩ := ex_rest (σ := σ) (k := k) (f := f) (mo := .strict) hF hm (show 1 ≤ r by omega) hr
  unfold parseKeepEmpty
  refine Ex.bind Ex.hasErrors ?_
  simp only [Bool.false_eq_true, if_false]
  refine Ex.bind (ex_voids_kept hF h h1 h2 h3) (Ex.bind hb ?_)
  cases v with
  | true => exact Ex.pure
  | false =>
    simp only [Bool.false_eq_true, if_false]
    have := Ex.truncate (σ := σ) (W := W) (p := q) (k := k) (n := (b ++ List.replicate i '\n').length) (b := b ++ List.replicate i '\n') (Nat.le_refl _)
    rw [List.take_length] at this
    exact Ex.bind this Ex.pure

theorem ex_chompedEmpty {i : Nat} {ch : Chomping} (hF : Flat W) (hm : 1 ≤ m) (hp : 1 ≤ p) (hc : ch = .clip ∨ ch = .strip ∨ ch = .keep)
    (h : Voids W m p i r) (hr : Rest W m r q) :
    Ex W p k (parseChompedEmpty f ⟨m, .strict⟩ ch b : M σ (Bool × Ind × Buf)) q k
      (true, ⟨m, .strict⟩, b ++ (if ch = .keep then List.replicate i '\n' else [])) := by
  unfold parseChompedEmpty
  refine Ex.bind Ex.hasErrors ?_
  simp only [Bool.false_eq_true, if_false]
  rcases hc with rfl | rfl | rfl
  · rw [if_neg (by decide), List.append_nil]
    exact Ex.bind (ex_stripEmpty hF hm hp h hr) Ex.pure
  · rw [if_neg (by decide), List.append_nil]
    exact Ex.bind (ex_stripEmpty hF hm hp h hr) Ex.pure
  · exact ex_keepEmpty hF hm hp h hr

theorem Ending.tail {o : Option Nat} (h : Ending W m c o q) : ∃ i r, Voids W m (c + 1) i r ∧ Rest W m r q ∧ i = o.getD 0 := by
  cases h with
  | line _ _ h1 h2 => exact ⟨_, _, h1, h2, rfl⟩
  | eof _ h => exact ⟨0, _, .nil, .eof h, rfl⟩

theorem ex_literalContent {ind : Ind} {d : Nat} {u : List Char} {o : Option Nat} {ch : Chomping} (hF : Flat W) (hW : W.mode = false) (hm : 1 ≤ m)
    (hz : FirstInd m ind) (hc : ch = .clip ∨ ch = .strip ∨ ch = .keep) (hw : Sp W p m) (h1 : TextLine W m p t c) (h2 : Lits W m c u d)
    (h3 : Ending W m d o q) :
    Ex W p k (parseLiteralContent f ind ch : M σ Node) q k (.text (t ++ u ++ chomped ch o) .unknown) := by
  obtain ⟨i, r, h4, h5, h6⟩ := h3.tail
  unfold parseLiteralContent
  refine Ex.bind Ex.hasErrors ?_
  simp only [Bool.false_eq_true, if_false]
  refine Ex.bind Ex.getBuf ?_
  have h7 : Ex W p k (do
      let r ← parseLiteralText f ind []
      if r.1 then do
        let x ← literalLines f r.2
        let c ← parseChompedLast ch x.2
        pure (c.1, x.1, c.2)
      else pure r : M σ (Bool × Ind × Buf)) (d + 1) k
        (true, ⟨m, .strict⟩, t ++ u ++ (if ch = .strip ∨ o = none then [] else ['\n'])) := by
    refine Ex.bind (ex_literalText_first hF hW hm hw hz h1) ?_
    simp only [if_true]
    exact Ex.bind (ex_literalLines hF hW hm h2 h3) (Ex.bind (ex_chompedLast hF hc h3) Ex.pure)
  refine Ex.bind (h7.attemptT rfl) ?_
  refine Ex.bind (ex_chompedEmpty (i := i) hF hm (by omega) hc h4 h5) ?_
  simp only [Bool.not_true, Bool.false_eq_true, if_false, if_true]
  have e : t ++ u ++ (if ch = .strip ∨ o = none then [] else ['\n']) ++ (if ch = .keep then List.replicate i '\n' else []) =
      t ++ u ++ chomped ch o := by
    subst h6
    rcases hc with rfl | rfl | rfl <;> cases o <;> simp [chomped]
  rw [e]
  exact Ex.bind Ex.resetAndPut Ex.pure

/-! ### The header -/

theorem ex_chomping_no (h1 : (W p).type ≠ .stripChomping) (h2 : (W p).type ≠ .keepChomping) :
    Ex W p k (parseChompingIndicator : M σ Chomping) p k .clip := by
  unfold parseChompingIndicator
  refine Ex.bind Ex.tok ?_
  cases h : (W p).type <;> first | exact Ex.pure | exact absurd h h1 | exact absurd h h2

theorem ex_indicator_no (h : (W p).type ≠ .string) : Ex W p k (parseIndentationIndicator : M σ (Option Int)) p k (some 0) := by
  unfold parseIndentationIndicator
  refine Ex.bind Ex.tok ?_
  rw [if_pos]
  · exact Ex.pure
  · simp [stringIn, h]

theorem headerEnd_ne {b : Nat} (h1 : Sp W p j) (h2 : Tail W (p + j) b) : (W p).type ≠ .stripChomping ∧ (W p).type ≠ .keepChomping ∧ (W p).type ≠ .string := by
  cases j with
  | zero => rcases h2.type with h | h | h <;> simp only [Nat.add_zero] at h <;> simp [h]
  | succ j => simp [h1.head]

theorem ex_chomping (hF : Flat W) {ch : Chomping} (h : Sign W p ch) : Ex W p k (parseChompingIndicator : M σ Chomping) (p + 1) k ch := by
  unfold parseChompingIndicator
  refine Ex.bind Ex.tok ?_
  rcases h.type with ⟨rfl, h1⟩ | ⟨rfl, h1⟩
  · simp only [h1]
    exact Ex.bind (Ex.next hF h.calm (.of h1)) Ex.pure
  · simp only [h1]
    exact Ex.bind (Ex.next hF h.calm (.of h1)) Ex.pure

theorem ex_indicator {i : Nat} (hF : Flat W) (h : Digit W p i) :
    Ex W p k (parseIndentationIndicator : M σ (Option Int)) (p + 1) k (some i) := by
  have key : ∀ i : Nat, 1 ≤ i → i ≤ 9 → YamlChar.conformsCharSet [i.digitChar] .decimal = true ∧ decimalValue [i.digitChar] = i := by
    intro i h1 h2
    have : i = 1 ∨ i = 2 ∨ i = 3 ∨ i = 4 ∨ i = 5 ∨ i = 6 ∨ i = 7 ∨ i = 8 ∨ i = 9 := by omega
    rcases this with rfl | rfl | rfl | rfl | rfl | rfl | rfl | rfl | rfl <;> decide +kernel
  obtain ⟨h1, h2⟩ := key i h.pos h.top
  have := h.pos
  have := h.top
  unfold parseIndentationIndicator
  refine Ex.bind Ex.tok ?_
  rw [if_neg (by simp [stringIn, h.type, h.origin, h1]), h.origin, h2, if_neg (by simp; omega)]
  exact Ex.bind (Ex.next hF h.calm (.of h.type)) Ex.pure

theorem Sign.ne {ch : Chomping} (h : Sign W p ch) : (W p).type ≠ .string ∧ ch ≠ .clip := by
  rcases h.type with ⟨rfl, h1⟩ | ⟨rfl, h1⟩ <;> simp [h1]

theorem ex_blockHeader {ch : Chomping} {b i : Nat} (hF : Flat W) (h : Header W p ch i b) :
    Ex W p k (parseBlockHeader f : M σ (Option (Chomping × Int))) (b + 1) k (some (ch, (i : Int))) := by
  unfold parseBlockHeader
  refine Ex.bind Ex.hasErrors ?_
  simp only [Bool.false_eq_true, if_false]
  cases h with
  | mk h0 h1 h2 h3 h4 =>
    rename_i q j
    have hn := headerEnd_ne h1 h2
    have key : Ex W q k (do
        let ok ← attempt id (parseSeparatedComment f)
        if ok then pure (some (ch, (i : Int))) else pure none : M σ (Option (Chomping × Int))) (b + 1) k (some (ch, (i : Int))) := by
      refine Ex.bind ((ex_separatedComment hF h1 h2 (.inr h3)).attemptT rfl) ?_
      simp only [if_true]
      exact Ex.pure
    cases h0 with
    | none =>
      refine Ex.bind (ex_chomping_no hn.1 hn.2.1) (Ex.bind (ex_indicator_no hn.2.2) ?_)
      simp only [if_true]
      exact Ex.bind (ex_chomping_no hn.1 hn.2.1) key
    | sign hs =>
      refine Ex.bind (ex_chomping hF hs) (Ex.bind (ex_indicator_no hn.2.2) ?_)
      simp only [if_neg hs.ne.2]
      exact Ex.bind Ex.pure key
    | digit hd =>
      refine Ex.bind (ex_chomping_no (by simp [hd.type]) (by simp [hd.type])) (Ex.bind (ex_indicator hF hd) ?_)
      simp only [if_true]
      exact Ex.bind (ex_chomping_no hn.1 hn.2.1) key
    | before hd hs =>
      refine Ex.bind (ex_chomping_no (by simp [hd.type]) (by simp [hd.type])) (Ex.bind (ex_indicator hF hd) ?_)
      simp only [if_true]
      exact Ex.bind (ex_chomping hF hs) key
    | behind hs hd =>
      refine Ex.bind (ex_chomping hF hs) (Ex.bind (ex_indicator hF hd) ?_)
      simp only [if_neg hs.ne.2]
      exact Ex.bind Ex.pure key

theorem Header.chomping {ch : Chomping} {b i : Nat} (h : Header W p ch i b) : ch = .clip ∨ ch = .strip ∨ ch = .keep := by
  cases h with
  | mk h =>
    cases h with
    | none => simp
    | digit => simp
    | sign h => rcases h.type with ⟨rfl, _⟩ | ⟨rfl, _⟩ <;> simp
    | before _ h => rcases h.type with ⟨rfl, _⟩ | ⟨rfl, _⟩ <;> simp
    | behind h => rcases h.type with ⟨rfl, _⟩ | ⟨rfl, _⟩ <;> simp

/-- The indentation of the content. -/
theorem scalarInd_opens {z : Int} {N i : Nat} {mo : IndMode} (hz : z + 1 = (N : Int)) (hN : N ≤ m) (h : i = 0 ∨ i + N = m + 1) :
    FirstInd m (scalarInd ⟨z, mo⟩ i) := by
  unfold scalarInd
  rcases h with rfl | h
  · exact .inl ⟨z, by omega, by simp⟩
  · rw [if_pos (by omega)]
    have : z + (i : Int) = m := by omega
    exact .inr (by rw [← this])

theorem ex_literal {z : Int} {N : Nat} {mo : IndMode} (hF : Flat W) (hW : W.mode = false) (hm : 1 ≤ m) (hz : z + 1 = (N : Int)) (hN : N ≤ m)
    (h : Bar W N m p t q) : Ex W p k (parseLiteral f ⟨z, mo⟩ : M σ Node) q k (.text t .unknown) := by
  cases h with
  | mk h1 h2 h3 h0 h4 h5 h6 h7 =>
    unfold parseLiteral
    refine Ex.bind Ex.hasErrors ?_
    simp only [Bool.false_eq_true, if_false]
    refine Ex.bind Ex.tok ?_
    rw [if_neg (by simp [h1])]
    refine Ex.bind (Ex.next hF h2 (.of h1)) (Ex.bind (ex_blockHeader hF h3) ?_)
    exact ex_literalContent hF hW hm (scalarInd_opens hz hN h0) h3.chomping h4 h5 h6 h7

end Verif.Parser
