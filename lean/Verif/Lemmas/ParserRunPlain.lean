import Verif.Lemmas.ParserRunElem

/-!
Exact executions of the productions for plain scalars.
-/

set_option linter.unusedSimpArgs false
set_option linter.unusedSectionVars false

namespace Verif.Parser

open Verif.Token Verif.Lexer Verif.Ast Verif.Spec.Cursor

variable {σ α β : Type} [TokenStream σ] [StreamOk σ]
variable {W : Toks} {p q p' j n m f : Nat} {k l : Nat → Nat} {ctx : PCtx}

/-- The contexts of flow content. -/
def Flowy (ctx : PCtx) : Prop := ctx = .flowOut ∨ ctx = .blockKey ∨ ctx = .flowIn ∨ ctx = .flowKey

/-- Words from token `p` to token `q`, which are the text `t`. -/
inductive PlainRun (W : Toks) (ctx : PCtx) : Nat → List Char → Nat → Prop
  | stop {p j : Nat} : Sp W p j → isPlainSafeToken (W (p + j)) ctx = false → PlainRun W ctx p [] p
  | word {p j : Nat} {t : List Char} {q : Nat} : (∀ i, i < j → ((W (p + i)).type = .space ∧ Calm W (p + i)) ∧ (W (p + i)).origin = [' ']) →
      (W (p + j)).type = .string → Calm W (p + j) → isPlainSafeToken (W (p + j)) ctx = true → PlainRun W ctx (p + j + 1) t q →
      PlainRun W ctx p (List.replicate j ' ' ++ (W (p + j)).origin ++ t) q

theorem ex_takeWhite (hF : Flat W) : ∀ {j p : Nat} {b : Buf}, Sp W p j → (∀ i, i < j → (W (p + i)).origin = [' ']) → ∀ {f : Nat},
    Ex W p k (takeWhile f isWhite b : M σ Buf) (p + j) k (b ++ List.replicate j ' ')
  | 0, p, b, h, _, f => by
    simp only [List.replicate_zero, List.append_nil]
    refine Ex.loopStop ?_
    refine Ex.bind Ex.tok ?_
    rw [if_neg (by simp [isWhite_false h.ns h.nt, h.ns, h.nt])]
    exact Ex.pure
  | j + 1, p, b, h, ho, f => by
    refine Ex.loopGo (p' := p + 1) (j := k) (y := b ++ [' ']) ?_ (fun f => ?_)
    · refine Ex.bind Ex.tok ?_
      rw [if_pos (isWhite_of_space h.head)]
      have := ho 0 (by omega)
      simp only [Nat.add_zero] at this
      rw [this]
      exact Ex.bind (Ex.next hF h.calm (.of h.head)) Ex.pure
    · have := ex_takeWhite hF (b := b ++ [' ']) h.tail (fun i hi => by
        have := ho (i + 1) (by omega)
        rw [show p + 1 + i = p + (i + 1) from by omega]; exact this) (f := f)
      rw [show p + (j + 1) = p + 1 + j from by omega, List.replicate_succ,
        show b ++ ' ' :: List.replicate j ' ' = b ++ [' '] ++ List.replicate j ' ' by simp]
      exact this

/-- White space whatever its text. -/
theorem ex_takeSpaces (hG : Ground W) : ∀ {j p : Nat}, (0 < j → W.hold = false) → Sp W p j → ∃ x : List Char, ∀ (b : Buf) (f : Nat),
    Ex W p k (takeWhile f isWhite b : M σ Buf) (p + j) k (b ++ x)
  | 0, p, _, h => by
    refine ⟨[], fun b f => ?_⟩
    rw [List.append_nil]
    refine Ex.loopStop ?_
    refine Ex.bind Ex.tok ?_
    rw [if_neg (by simp [isWhite_false h.ns h.nt, h.ns, h.nt])]
    exact Ex.pure
  | j + 1, p, hh, h => by
    obtain ⟨x, hx⟩ := ex_takeSpaces hG (j := j) (p := p + 1) (fun _ => hh (by omega)) h.tail
    refine ⟨(W p).origin ++ x, fun b f => ?_⟩
    refine Ex.loopGo (p' := p + 1) (j := k) (y := b ++ (W p).origin) ?_ (fun f => ?_)
    · refine Ex.bind Ex.tok ?_
      rw [if_pos (isWhite_of_space h.head)]
      exact Ex.bind (Ex.nextG hG h.calm (.of h.head) (by simp [hh (by omega)])) Ex.pure
    · rw [← List.append_assoc]
      exact (hx _ f).cast (by omega)

theorem isPlainSafeToken_string {t : Tok} (h : t.type ≠ .string) : isPlainSafeToken t ctx = false := by
  unfold isPlainSafeToken stringIn
  cases ctx <;> simp [h]

theorem take_buf (b : Buf) (c : Buf) : (b ++ c).take b.length = b := by simp

/-- The body of the loop of `parsePlainInLine`. -/
def plainBody (f : Nat) (ctx : PCtx) (buf : Buf) : M σ (Bool × Buf) := do
  setCheckpoint
  let b ← takeWhile f isWhite buf
  let t ← tok
  if !isPlainSafeToken t ctx then do
    let b ← truncate buf.length b
    rollback
    pure (false, b)
  else do
    commit
    next
    pure (true, b ++ t.origin)

theorem ex_plainBody_stop (hG : Ground W) (hh : 0 < j → W.hold = false) (hn : W.hold = true ∨ isOpen (W p) = false) (h : Sp W p j)
    (hs : isPlainSafeToken (W (p + j)) ctx = false) (b : Buf) (f0 : Nat) : Ex W p k (plainBody f0 ctx b : M σ (Bool × Buf)) p k (false, b) := by
  obtain ⟨x, hx⟩ := ex_takeSpaces (σ := σ) (k := k) hG hh h
  refine ExS.ex ?_
  unfold plainBody
  refine ExS.bind (ExS.setCheckpoint hn) ?_
  refine ExS.bind (Ex.s (hx b f0)) ?_
  refine ExS.bind (Ex.s Ex.tok) ?_
  rw [if_pos (by simp [hs])]
  refine ExS.bind (Ex.s (Ex.truncate (by simp))) ?_
  refine ExS.bind ExS.rollback ?_
  rw [take_buf]
  exact Ex.s Ex.pure

theorem ex_plainLoop (hF : Flat W) {t : List Char} (h : PlainRun W ctx p t q) : ∀ (b : Buf) (f0 f : Nat),
    Ex W p k (loop f (plainBody f0 ctx) b : M σ Buf) q k (b ++ t) := by
  induction h with
  | @stop p j h hs =>
    intro b f0 f
    rw [List.append_nil]
    refine Ex.loopStop ?_
    cases j with
    | zero => exact Ex.unheld (ex_plainBody_stop hF.held (by omega) (.inl rfl) h hs b f0)
    | succ j => exact ex_plainBody_stop hF.toGround (fun _ => hF.free) (.inr (Free.of h.head).1) h hs b f0
  | @word p j t q h hs hc hp hr ih =>
    intro b f0 f
    have hw : Sp W p j := ⟨fun i hi => (h i hi).1, by simp [hs], by simp [hs]⟩
    refine Ex.loopGo (p' := p + j + 1) (j := k) (y := b ++ (List.replicate j ' ' ++ (W (p + j)).origin)) ?_ (fun f => ?_)
    · refine ExS.ex ?_
      unfold plainBody
      refine ExS.bind (ExS.setCheckpoint (.inr ?_)) ?_
      · cases j with
        | zero => exact (Free.of hs).1
        | succ j => exact (Free.of hw.head).1
      refine ExS.bind (Ex.s (ex_takeWhite hF hw (fun i hi => (h i hi).2))) ?_
      refine ExS.bind (Ex.s Ex.tok) ?_
      rw [if_neg (by simp [hp])]
      refine ExS.bind ExS.commit ?_
      refine ExS.bind (Ex.s (Ex.next hF hc (.of hs))) ?_
      rw [← List.append_assoc]
      exact Ex.s Ex.pure
    · have := ih (b ++ (List.replicate j ' ' ++ (W (p + j)).origin)) f0 f
      rw [List.append_assoc] at this
      exact this

theorem ex_plainInLine (hF : Flat W) {t : List Char} (h : PlainRun W ctx p t q) (b : Buf) :
    Ex W p k (parsePlainInLine f ctx b : M σ (Bool × Buf)) q k (true, b ++ t) := by
  unfold parsePlainInLine
  refine Ex.bind Ex.hasErrors ?_
  simp only [Bool.false_eq_true, if_false]
  exact Ex.bind (ex_plainLoop hF h b f f) Ex.pure

theorem ex_plainFirst (hs : (W p).type = .string) (hp : isPlainSafeToken (W p) ctx = true) (b : Buf) :
    Ex W p k (parsePlainFirst ctx b : M σ (Bool × Buf)) p k (true, b) := by
  unfold parsePlainFirst
  refine Ex.bind Ex.hasErrors ?_
  simp only [Bool.false_eq_true, if_false]
  refine Ex.bind Ex.tok ?_
  rw [if_pos (by simp [hs, hp])]
  exact Ex.pure

theorem ex_plainFirst_no (hs : isPlainSafeToken (W p) ctx = false) (hi : isPlainIndicator (W p) = false) (b : Buf) :
    Ex W p k (parsePlainFirst ctx b : M σ (Bool × Buf)) p k (false, b) := by
  unfold parsePlainFirst
  refine Ex.bind Ex.hasErrors ?_
  simp only [Bool.false_eq_true, if_false]
  refine Ex.bind Ex.tok ?_
  rw [if_neg (by simp [hs]), if_pos (by simp [hi])]
  exact Ex.pure

/-- A plain scalar on a line. -/
theorem ex_plainOneLine (hF : Flat W) {t : List Char} (hs : (W p).type = .string) (hp : isPlainSafeToken (W p) ctx = true)
    (h : PlainRun W ctx p t q) : Ex W p k (parsePlainOneLine f ctx : M σ Node) q k (.text t .unknown) := by
  unfold parsePlainOneLine
  refine Ex.bind Ex.hasErrors ?_
  simp only [Bool.false_eq_true, if_false]
  refine Ex.bind Ex.getBuf ?_
  refine Ex.bind (ex_plainFirst hs hp []) ?_
  simp only [Bool.not_true, Bool.false_eq_true, if_false]
  refine Ex.bind (ex_plainInLine hF h []) ?_
  simp only [Bool.not_true, Bool.false_eq_true, if_false, List.nil_append]
  exact Ex.bind Ex.resetAndPut Ex.pure

/-- No plain scalar: the failure is counted. -/
theorem ex_plainOneLine_no {lo c hi : Nat} (hF : Ground W) (h1 : lo ≤ p) (h2 : p < hi) (h3 : c < 64) (hs : isPlainSafeToken (W p) ctx = false)
    (hn : isPlainIndicator (W p) = false) :
    Ex W p (lv lo c hi) (parsePlainOneLine f ctx : M σ Node) p (lv lo (c + 1) hi) .invalid := by
  unfold parsePlainOneLine
  refine Ex.bind Ex.hasErrors ?_
  simp only [Bool.false_eq_true, if_false]
  refine Ex.bind Ex.getBuf ?_
  refine Ex.bind (ex_plainFirst_no hs hn []) ?_
  simp only [Bool.not_false, if_true]
  refine Ex.bind Ex.tok ?_
  refine Ex.bind (Ex.mark_lv hF h1 h2 h3) ?_
  simp only [Bool.false_eq_true, if_false]
  exact Ex.bind Ex.resetAndPut Ex.pure

/-! ### The next line does not belong to the scalar -/

theorem ex_upToSpacesG (hG : Ground W) : ∀ {n j p : Nat}, (0 < j → W.hold = false) → Sp W p j → j ≤ n →
    Ex W p k (upToSpaces n : M σ Unit) (p + j) k ()
  | 0, j, p, _, _, h => by
    obtain rfl : j = 0 := by omega
    exact Ex.pure
  | n + 1, 0, p, _, hw, _ => by
    rw [upToSpaces]
    refine Ex.bind Ex.tok ?_
    rw [if_pos hw.ns]
    exact Ex.pure
  | n + 1, j + 1, p, hh, hw, h => by
    rw [upToSpaces]
    refine Ex.bind Ex.tok ?_
    rw [if_neg (by simp [hw.head])]
    exact Ex.bind (Ex.nextG hG hw.calm (.of hw.head) (by simp [hh (by omega)]))
      ((ex_upToSpacesG hG (fun _ => hh (by omega)) hw.tail (by omega)).cast (by omega))

theorem ex_upToSpaces (hF : Flat W) (hw : Sp W p j) (h : j ≤ n) : Ex W p k (upToSpaces n : M σ Unit) (p + j) k () :=
  ex_upToSpacesG hF.toGround (fun _ => hF.free) hw h

theorem ex_truncate_self {b : Buf} : Ex W p k (truncate b.length b : M σ Buf) p k b := by
  have := Ex.truncate (σ := σ) (W := W) (p := p) (k := k) (n := b.length) (b := b) (Nat.le_refl _)
  rwa [List.take_length] at this

theorem ex_truncate_append {b x : Buf} : Ex W p k (truncate b.length (b ++ x) : M σ Buf) p k b := by
  have := Ex.truncate (σ := σ) (W := W) (p := p) (k := k) (n := b.length) (b := b ++ x) (by simp)
  rwa [take_buf] at this

/-- The spaces at the start of a line, when it is looked at as an empty one. -/
theorem ex_empty_ofG {ok : Bool × Ind × Buf} (hG : Ground W) (hh : 0 < j → W.hold = false) (hw : Sp W p j) (b : Buf) (h : Ex W (p + j) k (do
      let t ← tok
      if t.type ≠ .lineBreak then pure (false, ⟨(n : Int), .strict⟩, b) else do
      next
      pure (true, ⟨(n : Int), .strict⟩, b ++ t.origin) : M σ (Bool × Ind × Buf)) q k ok) :
    Ex W p k (parseEmpty f ⟨(n : Int), .strict⟩ .flowIn b : M σ (Bool × Ind × Buf)) q k ok := by
  unfold parseEmpty
  refine Ex.bind Ex.hasErrors ?_
  simp only [Bool.false_eq_true, if_false]
  by_cases hj : n ≤ j
  · refine Ex.bind (Ex.attemptT (ex_flowLinePrefixG hG hh hw hj) rfl) ?_
    exact h
  · refine Ex.bind (Ex.attemptJ hw (fun _ => ex_flowLinePrefix_shortG hG.held (by omega) hw (by omega))
      (fun _ => ex_flowLinePrefix_shortG hG hh hw (by omega)) rfl) ?_
    simp only [Bool.false_eq_true, if_false]
    have h1 : Ex W p k (parseIndentLessThan (n : Int) : M σ Bool) (p + j) k true := by
      unfold parseIndentLessThan parseBorderedIndent
      refine Ex.bind Ex.hasErrors ?_
      rw [if_neg (by simp; omega)]
      exact Ex.bind (ex_upToSpacesG hG hh hw (by omega)) Ex.pure
    refine Ex.bind h1 ?_
    simp only [Bool.not_true, Bool.false_eq_true, if_false]
    exact h

theorem ex_empty_of {ok : Bool × Ind × Buf} (hF : Flat W) (hw : Sp W p j) (b : Buf) (h : Ex W (p + j) k (do
      let t ← tok
      if t.type ≠ .lineBreak then pure (false, ⟨(n : Int), .strict⟩, b) else do
      next
      pure (true, ⟨(n : Int), .strict⟩, b ++ t.origin) : M σ (Bool × Ind × Buf)) q k ok) :
    Ex W p k (parseEmpty f ⟨(n : Int), .strict⟩ .flowIn b : M σ (Bool × Ind × Buf)) q k ok :=
  ex_empty_ofG hF.toGround (fun _ => hF.free) hw b h

theorem ex_empty_noG (hG : Ground W) (hh : 0 < j → W.hold = false) (hw : Sp W p j) (hb : (W (p + j)).type ≠ .lineBreak) (b : Buf) :
    Ex W p k (parseEmpty f ⟨(n : Int), .strict⟩ .flowIn b : M σ (Bool × Ind × Buf)) (p + j) k
      (false, ⟨(n : Int), .strict⟩, b) := by
  refine ex_empty_ofG hG hh hw b (Ex.bind Ex.tok ?_)
  rw [if_pos hb]
  exact Ex.pure

theorem ex_empty_no (hF : Flat W) (hw : Sp W p j) (hb : (W (p + j)).type ≠ .lineBreak) (b : Buf) :
    Ex W p k (parseEmpty f ⟨(n : Int), .strict⟩ .flowIn b : M σ (Bool × Ind × Buf)) (p + j) k
      (false, ⟨(n : Int), .strict⟩, b) :=
  ex_empty_noG hF.toGround (fun _ => hF.free) hw hb b

theorem ex_empty_yes (hF : Flat W) (hw : Sp W p j) (hb : (W (p + j)).type = .lineBreak) (b : Buf) :
    Ex W p k (parseEmpty f ⟨(n : Int), .strict⟩ .flowIn b : M σ (Bool × Ind × Buf)) (p + j + 1) k
      (true, ⟨(n : Int), .strict⟩, b ++ (W (p + j)).origin) := by
  refine ex_empty_of hF hw b (Ex.bind Ex.tok ?_)
  rw [if_neg (by simp [hb])]
  exact Ex.bind (Ex.nextL hF (isBreakOrEOF_iff.2 (.inl hb))) Ex.pure

/-- Empty lines from token `p` up to token `q`, with the line breaks at their ends. -/
inductive Blanks (W : Toks) : Nat → List (List Char) → Nat → Prop
  | none {p : Nat} : Blanks W p [] p
  | line {p j q : Nat} {x : List (List Char)} : Sp W p j → (W (p + j)).type = .lineBreak → Blanks W (p + j + 1) x q →
      Blanks W p ((W (p + j)).origin :: x) q

/-- The text of a line break with such empty lines after it. -/
def joint : List (List Char) → List Char
  | [] => [' ']
  | x :: xs => x ++ xs.flatten

/-- The lines without content start with empty lines. -/
theorem Gap.blanks (h : Gap W p q) : ∃ x p' j, Blanks W p x p' ∧ Sp W p' j ∧ (W (p' + j)).type ≠ .lineBreak ∧
    ((W (p' + j)).type = .comment ∨ (W (p' + j)).type = .eof ∨ p' = q ∧ Begins (W (p' + j))) := by
  induction h with
  | here h1 h2 => exact ⟨_, _, _, .none, h1, h2.2.2.1, .inr (.inr ⟨rfl, h2⟩)⟩
  | @line p j c q h1 h2 h3 _ ih =>
    cases h2 with
    | none =>
      obtain ⟨x, p', j', h4, h5⟩ := ih
      exact ⟨_, p', j', .line h1 h3 h4, h5⟩
    | text h => exact ⟨_, p, j, .none, h1, by simp [h], .inl h⟩
  | @last p j c h1 h2 h3 h4 =>
    cases h2 with
    | none => exact ⟨_, p, j, .none, h1, by simp [h3], .inr (.inl h3)⟩
    | text h => exact ⟨_, p, j, .none, h1, by simp [h], .inl h⟩

theorem ex_empties (hF : Flat W) {x : List (List Char)} (h : Blanks W p x q) : Sp W q j → (W (q + j)).type ≠ .lineBreak →
    ∀ (b : Buf) (f f0 : Nat), Ex W p k (tries f (fun x => do
      let r ← parseEmpty f0 x.1 .flowIn x.2
      if r.1 then pure (true, r.2) else do
      let b ← truncate x.2.length r.2.2
      pure (false, r.2.1, b)) (⟨(n : Int), .strict⟩, b) : M σ (Ind × Buf)) q k (⟨(n : Int), .strict⟩, b ++ x.flatten) := by
  induction h with
  | @none p =>
    intro h1 h2
    intro b f f0
    rw [List.flatten_nil, List.append_nil]
    refine Ex.triesStopJ (q := p + j) h1 (fun e => ?_) (fun _ => ?_)
    · refine Ex.bind (ex_empty_noG hF.held (by omega) h1 h2 b) ?_
      simp only [Bool.false_eq_true, if_false]
      exact Ex.bind ex_truncate_self Ex.pure
    · refine Ex.bind (ex_empty_no hF h1 h2 b) ?_
      simp only [Bool.false_eq_true, if_false]
      exact Ex.bind ex_truncate_self Ex.pure
  | @line p i q x h3 h4 _ ih =>
    intro h1 h2 b f f0
    refine Ex.triesGo (p' := p + i + 1) (j := k) (y := (⟨(n : Int), .strict⟩, b ++ (W (p + i)).origin)) ?_ (fun f => ?_)
    · refine Ex.bind (ex_empty_yes hF h3 h4 b) ?_
      simp only [if_true]
      exact Ex.pure
    · rw [List.flatten_cons, ← List.append_assoc]
      exact ih h1 h2 _ f f0

theorem ex_foldedBreak_no {ctx : PCtx} (hb : (W p).type ≠ .lineBreak) (ind : Ind) (b : Buf) :
    Ex W p k (parseFoldedLineBreak f ind ctx b : M σ (Bool × Ind × Buf)) p k (false, ind, b) := by
  have h1 : Ex W.held p k (parseTrimmed f ind ctx b : M σ (Bool × Ind × Buf)) p k (false, ind, b) := by
    unfold parseTrimmed
    refine Ex.bind Ex.hasErrors ?_
    simp only [Bool.false_eq_true, if_false]
    refine Ex.bind Ex.tok ?_
    rw [if_pos hb]
    exact Ex.pure
  unfold parseFoldedLineBreak
  refine Ex.bind Ex.hasErrors ?_
  simp only [Bool.false_eq_true, if_false]
  refine Ex.bind (Ex.attemptF h1 rfl) ?_
  simp only [Bool.false_eq_true, if_false]
  refine Ex.bind ex_truncate_self (Ex.bind Ex.tok ?_)
  rw [if_pos hb]
  exact Ex.pure

theorem ex_foldedBreak (hF : Flat W) (hl : (W p).type = .lineBreak) {x : List (List Char)} (h : Blanks W (p + 1) x q) (hw : Sp W q j)
    (hb : (W (q + j)).type ≠ .lineBreak) (b : Buf) (f : Nat) :
    Ex W p k (parseFoldedLineBreak f ⟨(n : Int), .strict⟩ .flowIn b : M σ (Bool × Ind × Buf)) q k
      (true, ⟨(n : Int), .strict⟩, b ++ joint x) := by
  cases h with
  | none =>
    have h1 : Ex W p k (parseTrimmed f ⟨(n : Int), .strict⟩ .flowIn b : M σ (Bool × Ind × Buf)) (p + 1 + j) k
        (false, ⟨(n : Int), .strict⟩, b) := by
      unfold parseTrimmed
      refine Ex.bind Ex.hasErrors ?_
      simp only [Bool.false_eq_true, if_false]
      refine Ex.bind Ex.tok ?_
      rw [if_neg (by simp [hl])]
      refine Ex.bind (Ex.nextL hF (isBreakOrEOF_iff.2 (.inl hl))) ?_
      refine Ex.bind (ex_empty_no hF hw hb b) ?_
      simp only [Bool.not_false, if_true]
      exact Ex.bind ex_truncate_self Ex.pure
    unfold parseFoldedLineBreak
    refine Ex.bind Ex.hasErrors ?_
    simp only [Bool.false_eq_true, if_false]
    refine Ex.bind (Ex.attemptN h1 (.inr (Free.of hl).1) rfl) ?_
    simp only [Bool.false_eq_true, if_false]
    refine Ex.bind ex_truncate_self (Ex.bind Ex.tok ?_)
    rw [if_neg (by simp [hl])]
    exact Ex.bind (Ex.nextL hF (isBreakOrEOF_iff.2 (.inl hl))) Ex.pure
  | @line _ i _ x h1 h2 h3 =>
    have hx := ex_empties (σ := σ) (k := k) (n := n) hF h3 hw hb
    have h4 : Ex W p k (parseTrimmed f ⟨(n : Int), .strict⟩ .flowIn b : M σ (Bool × Ind × Buf)) q k
        (true, ⟨(n : Int), .strict⟩, b ++ joint ((W (p + 1 + i)).origin :: x)) := by
      unfold parseTrimmed
      refine Ex.bind Ex.hasErrors ?_
      simp only [Bool.false_eq_true, if_false]
      refine Ex.bind Ex.tok ?_
      rw [if_neg (by simp [hl])]
      refine Ex.bind (Ex.nextL hF (isBreakOrEOF_iff.2 (.inl hl))) ?_
      refine Ex.bind (ex_empty_yes hF h1 h2 b) ?_
      simp only [Bool.not_true, Bool.false_eq_true, if_false]
      rw [joint, ← List.append_assoc]
      exact Ex.bind (hx _ f f) Ex.pure
    unfold parseFoldedLineBreak
    refine Ex.bind Ex.hasErrors ?_
    simp only [Bool.false_eq_true, if_false]
    refine Ex.bind (Ex.attemptT h4 rfl) ?_
    simp only [if_true]
    exact Ex.pure

/-- The line on token `q` does not continue a text which is at column `n`. -/
def NoText (W : Toks) (n q : Nat) : Prop := ∀ j, Sp W q j → Begins (W (q + j)) → n ≤ j → (W (q + j)).type ≠ .string

theorem NoText.mono (h : NoText W n q) (hm : n ≤ m) : NoText W m q := fun j h1 h2 h3 => h j h1 h2 (by omega)

/-- The next line after the end of a line with text. -/
theorem ex_plainNextLine (hF : Flat W) (h : Eol W p q) (hn : NoText W n q) : ∃ r, ∀ (b : Buf) (f : Nat),
    Ex W p k (parsePlainNextLine f ⟨(n : Int), .strict⟩ ctx b : M σ (Bool × Ind × Buf)) r k
      (false, ⟨(n : Int), .strict⟩, b) := by
  have stop : ∀ {i : Nat}, Sp W p i → (W (p + i)).type ≠ .lineBreak → ∃ r, ∀ (b : Buf) (f : Nat),
      Ex W p k (parsePlainNextLine f ⟨(n : Int), .strict⟩ ctx b : M σ (Bool × Ind × Buf)) r k
        (false, ⟨(n : Int), .strict⟩, b) := by
    intro i h1 h2
    refine ⟨p + i, fun b f => ?_⟩
    obtain ⟨s, hs⟩ := ex_sepInLine_opt (σ := σ) (k := k) (f := f) hF h1
    unfold parsePlainNextLine
    refine Ex.bind Ex.hasErrors ?_
    simp only [Bool.false_eq_true, if_false]
    refine Ex.bind (p' := p + i) (j := k) (a := (false, ⟨(n : Int), .strict⟩, b)) ?_ ?_
    · unfold parseFlowFolded
      refine Ex.bind Ex.hasErrors ?_
      simp only [Bool.false_eq_true, if_false]
      refine Ex.bind hs (Ex.bind (ex_foldedBreak_no h2 _ b) ?_)
      simp only [Bool.not_false, if_true]
      exact Ex.bind ex_truncate_self Ex.pure
    · simp only [Bool.not_false, if_true]
      exact Ex.bind ex_truncate_self Ex.pure
  cases h with
  | last h1 h2 _ h3 =>
    refine stop h1 ?_
    cases h2 with
    | none => simp [h3]
    | text h => simp [h]
  | line h1 h2 h3 h4 h5 =>
    cases h2 with
    | text h => exact stop h1 (by simp [h])
    | none =>
      obtain ⟨x, p', j, h6, h7, h8, h9⟩ := h5.blanks
      have hx := ex_foldedBreak (σ := σ) (k := k) (n := n) hF h4 h6 h7 h8
      have hns : n ≤ j → isPlainSafeToken (W (p' + j)) ctx = false := by
        intro hj
        refine isPlainSafeToken_string ?_
        rcases h9 with h | h | ⟨rfl, h⟩
        · simp [h]
        · simp [h]
        · exact hn j h7 h hj
      refine ⟨p' + j, fun b f => ?_⟩
      obtain ⟨s, hs⟩ := ex_sepInLine_opt (σ := σ) (k := k) (f := f) hF h1
      unfold parsePlainNextLine
      refine Ex.bind Ex.hasErrors ?_
      simp only [Bool.false_eq_true, if_false]
      by_cases hj : n ≤ j
      · refine Ex.bind (p' := p' + j) (j := k) (a := (true, ⟨(n : Int), .strict⟩, b ++ joint x)) ?_ ?_
        · unfold parseFlowFolded
          refine Ex.bind Ex.hasErrors ?_
          simp only [Bool.false_eq_true, if_false]
          refine Ex.bind hs (Ex.bind (hx b f) ?_)
          simp only [Bool.not_true, Bool.false_eq_true, if_false]
          refine Ex.bind (ex_flowLinePrefix hF h7 hj) ?_
          simp only [Bool.not_true, Bool.false_eq_true, if_false]
          exact Ex.pure
        · simp only [Bool.not_true, Bool.false_eq_true, if_false]
          refine Ex.bind Ex.tok ?_
          rw [if_pos (by simp [hns hj])]
          exact Ex.bind ex_truncate_append Ex.pure
      · refine Ex.bind (p' := p' + j) (j := k) (a := (false, ⟨(n : Int), .strict⟩, b)) ?_ ?_
        · unfold parseFlowFolded
          refine Ex.bind Ex.hasErrors ?_
          simp only [Bool.false_eq_true, if_false]
          refine Ex.bind hs (Ex.bind (hx b f) ?_)
          simp only [Bool.not_true, Bool.false_eq_true, if_false]
          refine Ex.bind (ex_flowLinePrefix_short hF h7 (by omega)) ?_
          simp only [Bool.not_false, if_true]
          exact Ex.bind ex_truncate_append Ex.pure
        · simp only [Bool.not_false, if_true]
          exact Ex.bind ex_truncate_self Ex.pure

/-- Further lines of a plain scalar at column `n` or behind it: the tokens from `p` up to `q` add the text. -/
inductive Para (W : Toks) (ctx : PCtx) (n : Nat) : Nat → List Char → Nat → Prop
  | stop {p : Nat} : Para W ctx n p [] p
  | line {p i q j r s : Nat} {x : List (List Char)} {t u : List Char} : Sp W p i → (W (p + i)).type = .lineBreak →
      Blanks W (p + i + 1) x q → Sp W q j → n ≤ j → (W (q + j)).type = .string → isPlainSafeToken (W (q + j)) ctx = true →
      PlainRun W ctx (q + j) t r → Para W ctx n r u s → Para W ctx n p (joint x ++ t ++ u) s

theorem Sp.free_break {i : Nat} (h : Sp W p i) (hl : (W (p + i)).type = .lineBreak) : Free (W p) := by
  cases i with
  | zero => exact .of hl
  | succ i => exact .of h.head

theorem PlainRun.le {t : List Char} (h : PlainRun W ctx p t q) : p ≤ q := by
  induction h with
  | stop => exact Nat.le_refl _
  | word _ _ _ _ _ ih => omega

theorem Blanks.le {x : List (List Char)} (h : Blanks W p x q) : p ≤ q := by
  induction h with
  | none => exact Nat.le_refl _
  | line _ _ _ ih => omega

theorem Para.le {t : List Char} (h : Para W ctx n p t q) : p ≤ q := by
  induction h with
  | stop => exact Nat.le_refl _
  | line _ _ h _ _ _ _ h2 _ ih =>
    have := h.le
    have := h2.le
    omega

/-- The next line is read. -/
theorem ex_plainNextLine_go (hF : Flat W) {i r : Nat} {x : List (List Char)} {t : List Char} (h1 : Sp W p i) (h2 : (W (p + i)).type = .lineBreak)
    (h3 : Blanks W (p + i + 1) x q) (h4 : Sp W q j) (h5 : n ≤ j) (h6 : (W (q + j)).type = .string)
    (h7 : isPlainSafeToken (W (q + j)) ctx = true) (h8 : PlainRun W ctx (q + j) t r) (b : Buf) :
    Ex W p k (parsePlainNextLine f ⟨(n : Int), .strict⟩ ctx b : M σ (Bool × Ind × Buf)) r k
      (true, ⟨(n : Int), .strict⟩, b ++ (joint x ++ t)) := by
  have hx := ex_foldedBreak (σ := σ) (k := k) (n := n) hF h2 h3 h4 (by simp [h6]) b f
  obtain ⟨s, hs⟩ := ex_sepInLine_opt (σ := σ) (k := k) (f := f) hF h1
  unfold parsePlainNextLine
  refine Ex.bind Ex.hasErrors ?_
  simp only [Bool.false_eq_true, if_false]
  refine Ex.bind (p' := q + j) (j := k) (a := (true, ⟨(n : Int), .strict⟩, b ++ joint x)) ?_ ?_
  · unfold parseFlowFolded
    refine Ex.bind Ex.hasErrors ?_
    simp only [Bool.false_eq_true, if_false]
    refine Ex.bind hs (Ex.bind hx ?_)
    simp only [Bool.not_true, Bool.false_eq_true, if_false]
    refine Ex.bind (ex_flowLinePrefix hF h4 h5) ?_
    simp only [Bool.not_true, Bool.false_eq_true, if_false]
    exact Ex.pure
  · simp only [Bool.not_true, Bool.false_eq_true, if_false]
    refine Ex.bind Ex.tok ?_
    rw [if_neg (by simp [h7])]
    have := ex_plainInLine (σ := σ) (k := k) (f := f) hF h8 (b ++ joint x)
    rw [List.append_assoc] at this
    refine Ex.bind this ?_
    simp only [Bool.not_true, Bool.false_eq_true, if_false]
    exact Ex.pure

theorem ex_plainLines (hF : Flat W) {u : List Char} (hp : Para W ctx n p u q) (h : Eol W q p') (hn : NoText W n p') : ∀ (b : Buf) (f f0 : Nat),
    Ex W p k (tries f (fun x => do
      let r ← parsePlainNextLine f0 x.1 ctx x.2
      if r.1 then pure (true, r.2) else do
      let b ← truncate x.2.length r.2.2
      pure (false, r.2.1, b)) (⟨(n : Int), .strict⟩, b) : M σ (Ind × Buf)) q k (⟨(n : Int), .strict⟩, b ++ u) := by
  induction hp with
  | stop =>
    intro b f f0
    rw [List.append_nil]
    obtain ⟨r, hr⟩ := ex_plainNextLine (σ := σ) (k := k) (ctx := ctx) hF h hn
    refine Ex.triesStopN (q := r) ?_ (.inr h.free.1)
    refine Ex.bind (hr b f0) ?_
    simp only [Bool.false_eq_true, if_false]
    exact Ex.bind ex_truncate_self Ex.pure
  | @line p i q j r s x t u h1 h2 h3 h4 h5 h6 h7 h8 _ ih =>
    intro b f f0
    refine Ex.triesGo (p' := r) (j := k) (y := (⟨(n : Int), .strict⟩, b ++ (joint x ++ t))) ?_ (fun f => ?_)
    · refine Ex.bind (ex_plainNextLine_go hF h1 h2 h3 h4 h5 h6 h7 h8 b) ?_
      simp only [if_true]
      exact Ex.pure
    · rw [show b ++ (joint x ++ t ++ u) = b ++ (joint x ++ t) ++ u from by simp]
      exact ih h _ f f0

/-- A plain scalar which ends with a line. -/
theorem ex_plainMultiLine (hF : Flat W) {t : List Char} (hs : (W p).type = .string) (hp : isPlainSafeToken (W p) ctx = true)
    (h : PlainRun W ctx p t q) {u : List Char} {r : Nat} (hu : Para W ctx n q u r) (he : Eol W r p') (hn : NoText W n p') :
    Ex W p k (parsePlainMultiLine f ⟨(n : Int), .strict⟩ ctx : M σ (Node × Ind)) r k
      (.text (t ++ u) .unknown, ⟨(n : Int), .strict⟩) := by
  unfold parsePlainMultiLine
  refine Ex.bind Ex.hasErrors ?_
  simp only [Bool.false_eq_true, if_false]
  refine Ex.bind (ex_plainOneLine hF hs hp h) ?_
  refine Ex.bind Ex.getBuf ?_
  refine Ex.bind (ex_plainLines hF hu he hn ([] ++ t) f f) ?_
  exact Ex.bind Ex.resetAndPut Ex.pure

end Verif.Parser
