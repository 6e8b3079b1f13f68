import Verif.Lemmas.ParserRunKey

/-!
Exact executions of the productions for flow collections on one line and on several lines.
-/

set_option linter.unusedSimpArgs false
set_option linter.unusedSectionVars false

namespace Verif.Parser

open Verif.Token Verif.Lexer Verif.Ast Verif.Spec.Cursor

variable {σ α β : Type} [TokenStream σ] [StreamOk σ]
variable {W : Toks} {p q p' j n m f : Nat} {k l : Nat → Nat} {ctx : PCtx} {ind ind' : Ind} {c : Calls σ} {t : List Char}
variable {e v x : Node} {d : Bool} {lo u hi i r N a z b : Nat} {json : Content σ}

/-- What does not depend on whether a bracket has to be left alone. -/
structure Plane (W : Toks) : Prop extends Ground W where
  brk : ∀ p, 1 ≤ p → isBreakOrEOF (W p) = true → Calm W p
  mode : W.mode = false

theorem Flat.plane (h : Flat W) : Plane W := ⟨h.toGround, h.brk, h.mode⟩

theorem Plane.held (h : Plane W) : Plane W.held := ⟨h.toGround.held, h.brk, h.mode⟩

theorem Plane.up (h : Plane W) : Flat W.up := ⟨⟨h.seq, h.map, h.fin, h.inj⟩, h.brk, h.mode, rfl⟩

/-! ### Counting -/

/-- `b` more failures at every token from number `a` to before number `z`. -/
def plus (k : Nat → Nat) (a z b : Nat) : Nat → Nat := fun i => if a ≤ i ∧ i < z then k i + b else k i

theorem plus_in (h1 : a ≤ i) (h2 : i < z) : plus k a z b i = k i + b := by simp [plus, h1, h2]

theorem plus_out (h : i < a ∨ z ≤ i) : plus k a z b i = k i := by
  unfold plus
  rw [if_neg (by omega)]

theorem le_plus (i : Nat) : k i ≤ plus k a z b i := by
  unfold plus
  split <;> omega

theorem Ex.markK (hG : Ground W) (hk : k p < 64) : Ex W p k (Parser.mark (W p) : M σ Bool) p (plus k p (p + 1) 1) false := by
  refine Ex.mark hG hk ?_ (fun i _ => le_plus i)
  rw [plus_in (Nat.le_refl _) (by omega)]
  omega

theorem ex_plainOneLine_noK (hG : Ground W) (hk : k p < 64) (hs : (W p).type ≠ .string) (hn : isPlainIndicator (W p) = false) :
    Ex W p k (parsePlainOneLine f ctx : M σ Node) p (plus k p (p + 1) 1) .invalid := by
  unfold parsePlainOneLine
  refine Ex.bind Ex.hasErrors ?_
  simp only [Bool.false_eq_true, if_false]
  refine Ex.bind Ex.getBuf ?_
  refine Ex.bind (ex_plainFirst_no (isPlainSafeToken_string hs) hn []) ?_
  simp only [Bool.not_false, if_true]
  refine Ex.bind Ex.tok ?_
  refine Ex.bind (Ex.markK hG hk) ?_
  simp only [Bool.false_eq_true, if_false]
  exact Ex.bind Ex.resetAndPut Ex.pure

theorem ex_plain_noK (hG : Ground W) (hx : Flowy ctx) (hk : k p < 64) (hs : (W p).type ≠ .string) (hn : isPlainIndicator (W p) = false) :
    Ex W p k (parsePlain f ind ctx : M σ (Node × Ind)) p (plus k p (p + 1) 1) (.invalid, ind) := by
  have multi : Ex W p k (parsePlainMultiLine f ind ctx : M σ (Node × Ind)) p (plus k p (p + 1) 1) (.invalid, ind) := by
    unfold parsePlainMultiLine
    refine Ex.bind Ex.hasErrors ?_
    simp only [Bool.false_eq_true, if_false]
    exact Ex.bind (ex_plainOneLine_noK hG hk hs hn) Ex.pure
  rcases hx with rfl | rfl | rfl | rfl
  · exact multi
  · exact Ex.bind (ex_plainOneLine_noK hG hk hs hn) Ex.pure
  · exact multi
  · exact Ex.bind (ex_plainOneLine_noK hG hk hs hn) Ex.pure

/-! ### Separation -/

theorem ex_skipWhiteH (hG : Ground W) : ∀ {j p : Nat}, (W.hold = true → isOpen (W (p + j)) = false) → Sp W p j → ∀ {f : Nat},
    Ex W p k (skipWhile f isWhite : M σ Unit) (p + j) k ()
  | 0, p, _, h, f => by
    refine Ex.loopStop ?_
    refine Ex.bind Ex.tok ?_
    rw [if_neg (by simp [isWhite_false h.ns h.nt])]
    exact Ex.pure
  | j + 1, p, hh, h, f => by
    have hh' : W.hold = true → isOpen (W (p + 1 + j)) = false := fun e => by rw [show p + 1 + j = p + (j + 1) from by omega]; exact hh e
    refine Ex.loopGo (p' := p + 1) (j := k) (y := ()) ?_ (fun f => ?_)
    · refine Ex.bind Ex.tok ?_
      rw [if_pos (isWhite_of_space h.head)]
      exact Ex.bind (Ex.nextG hG h.calm (.of h.head) (fun e => h.tail.closed (hh' e))) Ex.pure
    · exact (ex_skipWhiteH hG hh' h.tail).cast (by omega)

theorem ex_sepInLine_optH (hG : Ground W) (hh : W.hold = true → isOpen (W (p + j)) = false) (hw : Sp W p j) :
    ∃ b, Ex W p k (attempt id (parseSeparateInLine f) : M σ Bool) (p + j) k b := by
  have yes : 0 < j ∨ solW W p = true → Ex W p k (parseSeparateInLine f : M σ Bool) (p + j) k true := by
    intro hs
    unfold parseSeparateInLine
    refine Ex.bind Ex.hasErrors ?_
    simp only [Bool.false_eq_true, if_false]
    refine Ex.bind Ex.tok (Ex.bind Ex.startOfLine ?_)
    rw [if_neg]
    · exact Ex.bind (ex_skipWhiteH hG hh hw) Ex.pure
    · rcases hs with hs | hs
      · cases j with
        | zero => omega
        | succ j => simp [isWhite_of_space hw.head]
      · simp [hs]
  cases hs : solW W p with
  | true => exact ⟨true, (yes (.inr hs)).attemptT rfl⟩
  | false =>
    cases j with
    | zero => exact ⟨false, Ex.attemptF (ex_sepInLine_no hw hs) rfl⟩
    | succ j => exact ⟨true, (yes (.inl (by omega))).attemptT rfl⟩

theorem ex_sep_no (hG : Ground W) (hx : Flowy ctx) (hw : Sp W p 0) (hs : solW W p = false) (hb : Begins (W p)) :
    Ex W p k (parseSeparate f ind ctx : M σ (Bool × Ind)) p k (false, ind) := by
  have lines : Ex W p k (parseSeparateLines f ind : M σ (Bool × Ind)) p k (false, ind) := by
    unfold parseSeparateLines
    refine Ex.bind Ex.hasErrors ?_
    simp only [Bool.false_eq_true, if_false]
    refine Ex.bind (Ex.attemptF (q := p) (l := k) (a := (false, ind)) (Ex.bind (ex_comments_midG hG.held (by omega) hw hs hb) ?_) rfl) ?_
    · simp only [Bool.not_false, if_true]
      exact Ex.pure
    · simp only [Bool.false_eq_true, if_false]
      exact Ex.bind (ex_sepInLine_no hw hs) Ex.pure
  have inl : Ex W p k (parseSeparateInLine f >>= fun s => pure (s, ind) : M σ (Bool × Ind)) p k (false, ind) :=
    Ex.bind (ex_sepInLine_no hw hs) Ex.pure
  rcases hx with rfl | rfl | rfl | rfl
  · exact lines
  · exact inl
  · exact lines
  · exact inl

theorem ex_sep_yes (hF : Flat W) (hx : Flowy ctx) (hw : Sp W p (j + 1)) (hs : solW W p = false) (hb : Begins (W (p + (j + 1)))) :
    Ex W p k (parseSeparate f ind ctx : M σ (Bool × Ind)) (p + (j + 1)) k (true, ind) := by
  have lines : Ex W p k (parseSeparateLines f ind : M σ (Bool × Ind)) (p + (j + 1)) k (true, ind) := by
    unfold parseSeparateLines
    refine Ex.bind Ex.hasErrors ?_
    simp only [Bool.false_eq_true, if_false]
    refine Ex.bind (Ex.attemptN (q := p) (l := k) (a := (false, ind)) (Ex.bind (ex_comments_mid hF hw hs hb) ?_)
      (.inr (Free.of hw.head).1) rfl) ?_
    · simp only [Bool.not_false, if_true]
      exact Ex.pure
    · simp only [Bool.false_eq_true, if_false]
      exact Ex.bind (ex_sepInLine_yes hF hw (.inl (by omega))) Ex.pure
  have inl : Ex W p k (parseSeparateInLine f >>= fun s => pure (s, ind) : M σ (Bool × Ind)) (p + (j + 1)) k (true, ind) :=
    Ex.bind (ex_sepInLine_yes hF hw (.inl (by omega))) Ex.pure
  rcases hx with rfl | rfl | rfl | rfl
  · exact lines
  · exact inl
  · exact lines
  · exact inl

/-! ### The same tokens at another level -/

theorem Sp.change {V : Toks} (hl : Like V W) (h : Sp W p j) : Sp V p j := by
  obtain ⟨tok, raw, mode, lv, ho⟩ := W
  obtain ⟨tok', raw', mode', lv', ho'⟩ := V
  obtain ⟨h1, h2, h3⟩ := id hl
  simp only at h1 h2 h3
  subst h1 h2 h3
  exact h

theorem PlainRun.change {V : Toks} (hl : Like V W) (h : PlainRun W ctx p t q) :
    PlainRun V ctx p t q := by
  obtain ⟨tok, raw, mode, lv, ho⟩ := W
  obtain ⟨tok', raw', mode', lv', ho'⟩ := V
  obtain ⟨h1, h2, h3⟩ := id hl
  simp only at h1 h2 h3
  subst h1 h2 h3
  induction h with
  | stop h h2 => exact .stop (h.change hl) h2
  | word h h2 hc h3 _ ih => exact .word h h2 hc h3 ih

theorem QuoteRun.change {V : Toks} {set} (hl : Like V W)
    (h : QuoteRun W set p t q) : QuoteRun V set p t q := by
  obtain ⟨tok, raw, mode, lv, ho⟩ := W
  obtain ⟨tok', raw', mode', lv', ho'⟩ := V
  obtain ⟨h1, h2, h3⟩ := id hl
  simp only at h1 h2 h3
  subst h1 h2 h3
  induction h with
  | stop => exact .stop
  | step h1 h2 h3 _ ih => exact .step h1 h2 h3 ih

theorem Atom.change {V : Toks} (hl : Like V W) (h : Atom W p e q) : Atom V p e q := by
  obtain ⟨tok, raw, mode, lv, ho⟩ := W
  obtain ⟨tok', raw', mode', lv', ho'⟩ := V
  obtain ⟨h1, h2, h3⟩ := id hl
  simp only at h1 h2 h3
  subst h1 h2 h3
  cases h with
  | scal h =>
    cases h with
    | word h => exact .scal (.word ⟨h.pos, h.str, h.safe, h.run.change hl, by obtain ⟨j, g1, g2⟩ := h.halt; exact ⟨j, g1.change hl, g2⟩⟩)
    | quoted h => exact .scal (.quoted ⟨h.pos, h.first, h.run.change hl, h.last, h.calm⟩)
  | ref h => exact .ref ⟨h.pos, h.sign, h.name, h.node, h.calm, h.next⟩

theorem Tail.change {V : Toks} {c : Nat} (hl : Like V W) (h : Tail W p c) : Tail V p c := by
  obtain ⟨tok, raw, mode, lv, ho⟩ := W
  obtain ⟨tok', raw', mode', lv', ho'⟩ := V
  obtain ⟨h1, h2, h3⟩ := id hl
  simp only at h1 h2 h3
  subst h1 h2 h3
  cases h with
  | none h => exact .none h
  | text h1 h2 h3 h4 h5 => exact .text h1 h2 h3 h4 h5

theorem Gap.change {V : Toks} (hl : Like V W) (h : Gap W p q) : Gap V p q := by
  obtain ⟨tok, raw, mode, lv, ho⟩ := W
  obtain ⟨tok', raw', mode', lv', ho'⟩ := V
  obtain ⟨h1, h2, h3⟩ := id hl
  simp only at h1 h2 h3
  subst h1 h2 h3
  induction h with
  | here h1 h2 => exact .here (h1.change hl) h2
  | line h1 h2 h3 _ ih => exact .line (h1.change hl) (h2.change hl) h3 ih
  | last h1 h2 h3 h4 => exact .last (h1.change hl) (h2.change hl) h3 h4

theorem Eol.change {V : Toks} (hl : Like V W) (h : Eol W p q) : Eol V p q := by
  obtain ⟨tok, raw, mode, lv, ho⟩ := W
  obtain ⟨tok', raw', mode', lv', ho'⟩ := V
  obtain ⟨h1, h2, h3⟩ := id hl
  simp only at h1 h2 h3
  subst h1 h2 h3
  cases h with
  | line h1 h2 h3 h4 h5 => exact .line (h1.change hl) (h2.change hl) h3 h4 (h5.change hl)
  | last h1 h2 h3 h4 h5 => exact .last (h1.change hl) (h2.change hl) h3 h4 h5

theorem Sp.up (h : Sp W p j) : Sp W.up p j := h

theorem isOpen_iff {t : Tok} : isOpen t = true ↔ t.type = .sequenceStart ∨ t.type = .mappingStart := by
  simp [isOpen]

/-! ### Lines -/

/-- From the end of something at token `p` to the start of the next thing on token `r`: in the same line, or, where lines are
allowed, in another one with at least `n` spaces in front. -/
inductive Room (W : Toks) : Option Nat → Nat → Nat → Prop
  | here {o : Option Nat} {p j : Nat} : Sp W p j → Begins (W (p + j)) → Room W o p (p + j)
  | lines {n p q j : Nat} : Eol W p q → Line W q j → n ≤ j → Room W (some n) p (q + j)

/-- Lines are allowed in these contexts, with this indentation. -/
def Fits : Option Nat → PCtx → Ind → Prop
  | none, ctx, _ => Flowy ctx
  | some n, ctx, ind => (ctx = .flowOut ∨ ctx = .flowIn) ∧ ind = ⟨n, .strict⟩

/-- Everything is on one line in these contexts. -/
def Keyed (ctx : PCtx) : Prop := ctx = .blockKey ∨ ctx = .flowKey

theorem Fits.flowy {o : Option Nat} (h : Fits o ctx ind) : Flowy ctx := by
  cases o with
  | none => exact h
  | some n =>
    rcases h.1 with h | h
    · exact .inl h
    · exact .inr (.inr (.inl h))

theorem Keyed.flowy (h : Keyed ctx) : Flowy ctx := by
  rcases h with h | h
  · exact .inr (.inl h)
  · exact .inr (.inr (.inr h))

theorem Keyed.fits (h : Keyed ctx) : Fits none ctx ind := h.flowy

theorem Room.begins {o : Option Nat} (h : Room W o p r) : Begins (W r) := by
  cases h with
  | here _ h => exact h
  | lines _ h => exact h.begins

theorem Room.le {o : Option Nat} (h : Room W o p r) : p ≤ r := by
  cases h with
  | here => omega
  | lines h => have := h.lt; omega

theorem Room.change {V : Toks} {o : Option Nat} (hl : Like V W) (h : Room W o p r) : Room V o p r := by
  obtain ⟨tok, raw, mode, lv, ho⟩ := W
  obtain ⟨tok', raw', mode', lv', ho'⟩ := V
  obtain ⟨h1, h2, h3⟩ := id hl
  simp only at h1 h2 h3
  subst h1 h2 h3
  cases h with
  | here h1 h2 => exact .here (h1.change hl) h2
  | lines h1 h2 h3 => exact .lines (h1.change hl) ⟨h2.sp.change hl, h2.begins, h2.sol⟩ h3

theorem Room.up {o : Option Nat} (h : Room W o p r) : Room W.up o p r := Room.change (W := W) ⟨rfl, rfl, rfl⟩ h

/-- What is allowed on one line is allowed on several. -/
theorem Room.wide {o : Option Nat} (h : Room W none p r) : Room W o p r := by
  cases h with
  | here h1 h2 => exact .here h1 h2

/-- In the line, or not. -/
theorem Room.or {o : Option Nat} (h : Room W o p r) : Room W none p r ∨ ∃ i, Sp W p i ∧ Mute (W (p + i)) ∧ p + i < r := by
  cases h with
  | here h1 h2 => exact .inl (.here h1 h2)
  | lines h1 h2 =>
    obtain ⟨i, hi⟩ := h1.sp
    have := h1.mute hi
    exact .inr ⟨i, hi, this.1, by omega⟩

/-- The spaces after something, and what comes after them in the line. -/
theorem Room.stop {o : Option Nat} (h : Room W o p r) : ∃ i, Sp W p i ∧ (r = p + i ∨ Mute (W (p + i)) ∧ p + i < r) := by
  cases h with
  | here h => exact ⟨_, h, .inl rfl⟩
  | lines h1 h2 =>
    obtain ⟨i, hi⟩ := h1.sp
    have := h1.mute hi
    exact ⟨i, hi, .inr ⟨this.1, by omega⟩⟩

theorem Room.mute {o : Option Nat} (h : Room W o p r) (hlt : p < r) : (W p).type ≠ .string := by
  cases h with
  | @here _ _ j h =>
    cases j with
    | zero => omega
    | succ j => simp [h.head]
  | lines h1 h2 =>
    obtain ⟨i, hi⟩ := h1.sp
    cases i with
    | zero => rcases (h1.mute hi).1 with h | h | h | h | h <;> simp_all
    | succ i => simp [hi.head]

theorem ex_sep_room {o : Option Nat} (hF : Flat W) (hp : 1 ≤ p) (hx : Fits o ctx ind) (h : Room W o p r) (hs : solW W p = false) (hlt : p < r) :
    Ex W p k (parseSeparate f ind ctx : M σ (Bool × Ind)) r k (true, ind) := by
  cases h with
  | @here _ _ j h1 h2 =>
    obtain ⟨j, rfl⟩ : ∃ i, j = i + 1 := ⟨j - 1, by omega⟩
    exact ex_sep_yes hF hx.flowy h1 hs h2
  | lines h1 h2 h3 =>
    obtain ⟨hc, rfl⟩ := hx
    have := ex_separateLines (σ := σ) (k := k) (f := f) hF (.lines hp h1 h2 h3)
    rcases hc with rfl | rfl <;> exact this

theorem ex_optSep {o : Option Nat} (hF : Flat W) (hp : 1 ≤ p) (hx : Fits o ctx ind) (h : Room W o p r) (hs : solW W p = false) :
    Ex W p k (optSeparate f ind ctx : M σ Ind) r k ind := by
  rcases Nat.eq_or_lt_of_le h.le with he | hlt
  · cases h with
    | @here _ _ j h1 h2 =>
      obtain rfl : j = 0 := by omega
      unfold optSeparate
      exact Ex.bind (Ex.attemptF (ex_sep_no hF.held hx.flowy h1 hs h2) rfl) Ex.pure
    | lines h1 => have := h1.lt; omega
  · unfold optSeparate
    exact Ex.bind (Ex.attemptT (ex_sep_room hF hp hx h hs hlt) rfl) Ex.pure

/-- The separation is over. -/
theorem ex_optSep_again {o : Option Nat} (hF : Flat W) (hp : 1 ≤ p) (hx : Fits o ctx ind) (h : Room W o p r) (hs : solW W p = false) :
    Ex W r k (optSeparate f ind ctx : M σ Ind) r k ind := by
  have last : ∀ {q j}, 1 ≤ q → Sp W q (j + 1) → solW W (q + (j + 1)) = false := by
    intro q j hq hw
    have := (hw.1 j (by omega)).1
    exact solW_not (p := q + j) (by omega) (by simp [this]) (by simp [this])
  have zero : solW W r = false → Ex W r k (optSeparate f ind ctx : M σ Ind) r k ind := by
    intro hs
    unfold optSeparate
    exact Ex.bind (Ex.attemptF (ex_sep_no hF.held hx.flowy h.begins.sp hs h.begins) rfl) Ex.pure
  cases h with
  | @here _ _ j h1 h2 =>
    cases j with
    | zero => exact zero hs
    | succ j => exact zero (last hp h1)
  | @lines n _ q j h1 h2 h3 =>
    have := h1.lt
    cases j with
    | succ j => exact zero (last (by omega) h2.sp)
    | zero =>
      obtain ⟨hc, rfl⟩ := hx
      have sep : Ex W (q + 0) k (parseSeparateLines f ⟨n, .strict⟩ : M σ (Bool × Ind)) (q + 0) k (true, ⟨n, .strict⟩) := by
        unfold parseSeparateLines
        refine Ex.bind Ex.hasErrors ?_
        simp only [Bool.false_eq_true, if_false]
        refine Ex.bind (Ex.attemptT (a := (true, ⟨n, .strict⟩)) (q := q + 0) (l := k) ?_ rfl) ?_
        · refine Ex.bind (ex_comments_gap hF (by omega) h2.sol (.here h2.sp h2.begins)) ?_
          simp only [Bool.not_true, Bool.false_eq_true, if_false]
          exact ex_flowLinePrefix hF h2.sp h3
        · simp only [if_true]
          exact Ex.pure
      unfold optSeparate
      rcases hc with rfl | rfl <;> exact Ex.bind (Ex.attemptT sep rfl) Ex.pure

/-- In a key the separation ends with the line. -/
theorem ex_optSep_key (hF : Flat W) (hx : Keyed ctx) (hw : Sp W p j) :
    Ex W p k (optSeparate f ind ctx : M σ Ind) (p + j) k ind := by
  have hsep : ∀ {b}, Ex W p k (parseSeparateInLine f : M σ Bool) (p + j) k b → Ex W p k (parseSeparate f ind ctx : M σ (Bool × Ind)) (p + j) k (b, ind) := by
    intro b h
    rcases hx with rfl | rfl <;> exact Ex.bind h Ex.pure
  have hsep0 : ∀ {b}, Ex W.held p k (parseSeparateInLine f : M σ Bool) p k b → Ex W.held p k (parseSeparate f ind ctx : M σ (Bool × Ind)) p k (b, ind) := by
    intro b h
    rcases hx with rfl | rfl <;> exact Ex.bind h Ex.pure
  unfold optSeparate
  cases hs : solW W p with
  | true => exact Ex.bind ((hsep (ex_sepInLine_yes hF hw (.inr hs))).attemptT rfl) Ex.pure
  | false =>
    cases j with
    | zero => exact Ex.bind (Ex.attemptF (hsep0 (ex_sepInLine_no hw hs)) rfl) Ex.pure
    | succ j => exact Ex.bind ((hsep (ex_sepInLine_yes hF hw (.inl (by omega)))).attemptT rfl) Ex.pure

/-- The next thing is no text, and no bracket is opened there. -/
structure Next (W : Toks) (o : Option Nat) (q r : Nat) : Prop where
  room : Room W o q r
  str : (W r).type ≠ .string
  shut : isOpen (W r) = false

theorem Mute.closed {t : Tok} (h : Mute t) : isOpen t = false := by
  rcases h with h | h | h | h | h <;> simp [isOpen, h]

theorem Mute.noColon {t : Tok} (h : Mute t) : t.type ≠ .mappingValue := by
  rcases h with h | h | h | h | h <;> simp [h]

theorem Next.stop {o : Option Nat} (h : Next W o q r) : ∃ i, Sp W q i ∧ isOpen (W (q + i)) = false ∧
    ((W r).type ≠ .mappingValue → (W (q + i)).type ≠ .mappingValue) := by
  obtain ⟨i, h1, h2⟩ := h.room.stop
  rcases h2 with rfl | ⟨h2, -⟩
  · exact ⟨i, h1, h.shut, id⟩
  · exact ⟨i, h1, h2.closed, fun _ => h2.noColon⟩

theorem Next.closed {o : Option Nat} (h : Next W o q r) : isOpen (W q) = false := by
  obtain ⟨i, h1, h2, -⟩ := h.stop
  exact h1.closed h2

/-! ### Plain words -/

theorem safe_flowy {k : Tok} (hx : Flowy ctx) (h2 : k.type = .string) (h3 : isPlainSafeToken k .blockKey = true) : isPlainSafeToken k ctx = true := by
  rcases hx with rfl | rfl | rfl | rfl
  · simp [isPlainSafeToken, h2]
  · exact h3
  · simp [isPlainSafeToken, h2]
  · exact h3

theorem PlainRun.flowy (hx : Flowy ctx) (h : PlainRun W .blockKey p t q) (hq : ∃ j, Sp W q j ∧ (W (q + j)).type ≠ .string) :
    PlainRun W ctx p t q := by
  induction h with
  | stop h h2 =>
    obtain ⟨i, g1, g2⟩ := hq
    exact .stop g1 (isPlainSafeToken_string g2)
  | word h h2 hc h3 _ ih => exact .word h h2 hc (safe_flowy hx h2 h3) (ih hq)

theorem ex_plain_word {o : Option Nat} (hF : Flat W) (hx : Fits o ctx ind) (h : Word W p t q) (hn : Next W o q r) :
    Ex W p k (parsePlain f ind ctx : M σ (Node × Ind)) q k (.text t .unknown, ind) := by
  have hrun := h.run.flowy hx.flowy h.halt
  have hsafe := safe_flowy hx.flowy h.str h.safe
  have one := ex_plainOneLine (σ := σ) (k := k) (f := f) hF h.str hsafe hrun
  obtain ⟨hroom, hstr, hshut⟩ := hn
  cases hroom with
  | @here _ _ i hw hb =>
    have multi : Ex W p k (parsePlainMultiLine f ind ctx : M σ (Node × Ind)) q k (.text t .unknown, ind) := by
      unfold parsePlainMultiLine
      refine Ex.bind Ex.hasErrors ?_
      simp only [Bool.false_eq_true, if_false]
      refine Ex.bind one ?_
      refine Ex.bind Ex.getBuf ?_
      refine Ex.bind (p' := q) (j := k) (a := (ind, [] ++ t)) ?_ (Ex.bind Ex.resetAndPut Ex.pure)
      refine Ex.triesStopN (q := q + i) ?_ (.inr (hw.closed hshut))
      refine Ex.bind (p' := q + i) (j := k) (a := (false, ind, [] ++ t)) ?_ ?_
      · obtain ⟨s, hs⟩ := ex_sepInLine_opt (σ := σ) (k := k) (f := f) hF hw
        unfold parsePlainNextLine
        refine Ex.bind Ex.hasErrors ?_
        simp only [Bool.false_eq_true, if_false]
        refine Ex.bind (p' := q + i) (j := k) (a := (false, ind, [] ++ t)) ?_ ?_
        · unfold parseFlowFolded
          refine Ex.bind Ex.hasErrors ?_
          simp only [Bool.false_eq_true, if_false]
          refine Ex.bind hs (Ex.bind (ex_foldedBreak_no hb.2.2.1 _ _) ?_)
          simp only [Bool.not_false, if_true]
          exact Ex.bind ex_truncate_self Ex.pure
        · simp only [Bool.not_false, if_true]
          exact Ex.bind ex_truncate_self Ex.pure
      · simp only [Bool.false_eq_true, if_false]
        exact Ex.bind ex_truncate_self Ex.pure
    rcases hx.flowy with rfl | rfl | rfl | rfl
    · exact multi
    · exact Ex.bind one Ex.pure
    · exact multi
    · exact Ex.bind one Ex.pure
  | @lines n _ q' j h1 h2 h3 =>
    obtain ⟨hc, rfl⟩ := hx
    have hn : NoText W n q' := by
      intro i g1 _ _
      obtain rfl := g1.unique h2.sp
      exact hstr
    have := ex_plainMultiLine (σ := σ) (k := k) (f := f) hF h.str hsafe hrun .stop h1 hn
    rw [List.append_nil] at this
    rcases hc with rfl | rfl <;> exact this

/-! ### The tokens of flow collections -/

/-- Nodes, the entries of sequences, an entry of a mapping (possibly with a `?` in front), and the entries of mappings. -/
inductive FK
  | node
  | items
  | entry
  | asked
  | pairs

/-- A node in flow style from token `p` to before token `q`, the entries of a sequence (as `.sequence`), or those of a mapping (as
`.mapping`), from the first one on token `p` to the closing bracket on token `q`; on one line, or, with `o = some n`, on lines with
at least `n` spaces in front.  At no token between the brackets the dead end finder counts more than `b` failures: what starts like
JSON is read twice as an entry of a sequence. -/
inductive Fl (W : Toks) (o : Option Nat) : FK → Nat → Nat → Node → Nat → Prop
  | atom {b p q : Nat} {e : Node} : Atom W p e q → Fl W o .node b p e q
  | seqNil {b p q : Nat} : 1 ≤ p → (W p).type = .sequenceStart → Calm W p → Room W o (p + 1) q → (W q).type = .sequenceEnd →
      Calm W q → 2 ≤ b → Fl W o .node b p (.sequence []) (q + 1)
  | seq {b p s q : Nat} {es : List Node} : 1 ≤ p → (W p).type = .sequenceStart → Calm W p → Room W o (p + 1) s →
      Fl W o .items b s (.sequence es) q → (W q).type = .sequenceEnd → Calm W q → Fl W o .node b p (.sequence es) (q + 1)
  | mapNil {b p q : Nat} : 1 ≤ p → (W p).type = .mappingStart → Calm W p → Room W o (p + 1) q → (W q).type = .mappingEnd →
      Calm W q → 1 ≤ b → Fl W o .node b p (.mapping []) (q + 1)
  | map {b p s q : Nat} {es : List Node} : 1 ≤ p → (W p).type = .mappingStart → Calm W p → Room W o (p + 1) s →
      Fl W o .pairs b s (.mapping es) q → (W q).type = .mappingEnd → Calm W q → Fl W o .node b p (.mapping es) (q + 1)
  | item {b c p q z : Nat} {e : Node} : Fl W o .node c p e q → 2 ≤ b ∧ 2 * c ≤ b → Room W o q z → (W z).type = .sequenceEnd →
      Fl W o .items b p (.sequence [e]) z
  | items {b c p q s a r : Nat} {e : Node} {es : List Node} : Fl W o .node c p e q → 2 ≤ b ∧ 2 * c ≤ b → Room W o q s →
      (W s).type = .collectEntry → Calm W s → Room W o (s + 1) a → Fl W o .items b a (.sequence es) r →
      Fl W o .items b p (.sequence (e :: es)) r
  | itemComma {b c p q s z : Nat} {e : Node} : Fl W o .node c p e q → 2 ≤ b ∧ 2 * c ≤ b → Room W o q s →
      (W s).type = .collectEntry → Calm W s → Room W o (s + 1) z → (W z).type = .sequenceEnd → Fl W o .items b p (.sequence [e]) z
  | value {b c p i s a q : Nat} {x e : Node} : Atom W p x i → Room W o i s → (W s).type = .mappingValue → Calm W s →
      Room W o (s + 1) a → ((W p).type = .string ∨ (W p).type = .alias → s + 1 < a) → Fl W o .node c a e q → c ≤ b → 1 ≤ b →
      Fl W o .entry b p (.mappingEntry x e) q
  | alone {b p q : Nat} {x : Node} : Atom W p x q → 1 ≤ b → Fl W o .entry b p (.mappingEntry x .null) q
  | void {b p i s : Nat} {x : Node} : Atom W p x i → Room W o i s → (W s).type = .mappingValue → Calm W s → 1 ≤ b →
      Fl W o .entry b p (.mappingEntry x .null) (s + 1)
  | plain {b p q : Nat} {e : Node} : Fl W o .entry b p e q → Fl W o .asked b p e q
  | asked {b p j q : Nat} {e : Node} : 1 ≤ p → (W p).type = .mappingKey → Calm W p → Sp W (p + 1) (j + 1) →
      Fl W o .entry b (p + 1 + (j + 1)) e q → Fl W o .asked b p e q
  | pair {b p q z : Nat} {e : Node} : Fl W o .asked b p e q → Room W o q z → (W z).type = .mappingEnd →
      Fl W o .pairs b p (.mapping [e]) z
  | pairComma {b p q s z : Nat} {e : Node} : Fl W o .asked b p e q → Room W o q s → (W s).type = .collectEntry → Calm W s →
      Room W o (s + 1) z → (W z).type = .mappingEnd → Fl W o .pairs b p (.mapping [e]) z
  | pairs {b p q z u r : Nat} {e : Node} {es : List Node} : Fl W o .asked b p e q → Room W o q z → (W z).type = .collectEntry →
      Calm W z → Room W o (z + 1) u → Fl W o .pairs b u (.mapping es) r → Fl W o .pairs b p (.mapping (e :: es)) r

theorem Fl.change {V : Toks} {o : Option Nat} {x : FK} (hl : Like V W) (h : Fl W o x b p e q) :
    Fl V o x b p e q := by
  obtain ⟨tok, raw, mode, lv, ho⟩ := W
  obtain ⟨tok', raw', mode', lv', ho'⟩ := V
  obtain ⟨h1, h2, h3⟩ := id hl
  simp only at h1 h2 h3
  subst h1 h2 h3
  induction h with
  | atom h => exact .atom (h.change hl)
  | seqNil h1 h2 h3 h4 h5 h6 h7 => exact .seqNil h1 h2 h3 (h4.change hl) h5 h6 h7
  | seq h1 h2 h3 h4 h5 h6 h7 ih => exact .seq h1 h2 h3 (h4.change hl) ih h6 h7
  | mapNil h1 h2 h3 h4 h5 h6 h7 => exact .mapNil h1 h2 h3 (h4.change hl) h5 h6 h7
  | map h1 h2 h3 h4 h5 h6 h7 ih => exact .map h1 h2 h3 (h4.change hl) ih h6 h7
  | item h1 h2 h3 h4 ih => exact .item ih h2 (h3.change hl) h4
  | items h1 h2 h3 h4 h5 h6 h7 ih ih2 => exact .items ih h2 (h3.change hl) h4 h5 (h6.change hl) ih2
  | itemComma h1 h2 h3 h4 h5 h6 h7 ih => exact .itemComma ih h2 (h3.change hl) h4 h5 (h6.change hl) h7
  | value h1 h2 h3 h4 h5 h6 h7 h8 h9 ih => exact .value (h1.change hl) (h2.change hl) h3 h4 (h5.change hl) h6 ih h8 h9
  | alone h1 h2 => exact .alone (h1.change hl) h2
  | void h1 h2 h3 h4 h5 => exact .void (h1.change hl) (h2.change hl) h3 h4 h5
  | plain h1 ih => exact .plain ih
  | asked h1 h2 h3 h4 h5 ih => exact .asked h1 h2 h3 (h4.change hl) ih
  | pair h1 h2 h3 ih => exact .pair ih (h2.change hl) h3
  | pairComma h1 h2 h3 h4 h5 h6 ih => exact .pairComma ih (h2.change hl) h3 h4 (h5.change hl) h6
  | pairs h1 h2 h3 h4 h5 h6 ih ih2 => exact .pairs ih (h2.change hl) h3 h4 (h5.change hl) ih2

theorem Fl.held {o : Option Nat} {x : FK} (h : Fl W o x b p e q) : Fl W.held o x b p e q := Fl.change (W := W) ⟨rfl, rfl, rfl⟩ h

theorem Fl.up {o : Option Nat} {x : FK} (h : Fl W o x b p e q) : Fl W.up o x b p e q := Fl.change (W := W) ⟨rfl, rfl, rfl⟩ h

/-- What a node in flow style starts with. -/
theorem Fl.type {o : Option Nat} (h : Fl W o .node b p e q) : (W p).type = .string ∨ (W p).type = .singleQuote ∨ (W p).type = .doubleQuote ∨
    (W p).type = .alias ∨ (W p).type = .sequenceStart ∨ (W p).type = .mappingStart := by
  cases h with
  | atom h => rcases h.type with h | h | h | h <;> simp [h]
  | seqNil _ h => simp [h]
  | seq _ h => simp [h]
  | mapNil _ h => simp [h]
  | map _ h => simp [h]

theorem Fl.begins {o : Option Nat} (h : Fl W o .node b p e q) : Begins (W p) := by
  rcases h.type with h | h | h | h | h | h <;> simp [Begins, h]

theorem Fl.pos {o : Option Nat} (h : Fl W o .node b p e q) : 1 ≤ p := by
  cases h with
  | atom h => exact h.pos
  | seqNil h => exact h
  | seq h => exact h
  | mapNil h => exact h
  | map h => exact h

theorem Fl.le {o : Option Nat} {x : FK} (h : Fl W o x b p e q) : p < q := by
  induction h with
  | atom h => exact h.lt
  | seqNil _ _ _ h => have := h.le; omega
  | seq _ _ _ h => have := h.le; omega
  | mapNil _ _ _ h => have := h.le; omega
  | map _ _ _ h => have := h.le; omega
  | item _ _ h => have := h.le; omega
  | items _ _ h _ _ h2 => have := h.le; have := h2.le; omega
  | itemComma _ _ h _ _ h2 => have := h.le; have := h2.le; omega
  | value h h2 _ _ h3 => have := h.lt; have := h2.le; have := h3.le; omega
  | alone h => exact h.lt
  | void h h2 => have := h.lt; have := h2.le; omega
  | plain _ ih => exact ih
  | asked => omega
  | pair _ h => have := h.le; omega
  | pairComma _ h _ _ h2 => have := h.le; have := h2.le; omega
  | pairs _ h _ _ h2 => have := h.le; have := h2.le; omega

theorem Fl.valid {o : Option Nat} (h : Fl W o .node b p e q) : validNode e = true := by
  cases h with
  | atom h => exact h.valid
  | seqNil => rfl
  | seq => rfl
  | mapNil => rfl
  | map => rfl

theorem Fl.sol {o : Option Nat} (h : Fl W o .node b p e q) : solW W q = false := by
  have hq := h.le
  cases h with
  | atom h => exact h.sol
  | seqNil h1 _ _ hr h => have := hr.le; exact solW_not (by omega) (by simp [h]) (by simp [h])
  | seq h1 _ _ hr h2 h => have := hr.le; have := h2.le; exact solW_not (by omega) (by simp [h]) (by simp [h])
  | mapNil h1 _ _ hr h => have := hr.le; exact solW_not (by omega) (by simp [h]) (by simp [h])
  | map h1 _ _ hr h2 h => have := hr.le; have := h2.le; exact solW_not (by omega) (by simp [h]) (by simp [h])

/-- More failures may be counted. -/
theorem Fl.mono {o : Option Nat} {x : FK} {b' : Nat} (hb : b ≤ b') (h : Fl W o x b p e q) : Fl W o x b' p e q := by
  induction h generalizing b' with
  | atom h => exact .atom h
  | seqNil h1 h2 h3 h4 h5 h6 h7 => exact .seqNil h1 h2 h3 h4 h5 h6 (by omega)
  | seq h1 h2 h3 h4 h5 h6 h7 ih => exact .seq h1 h2 h3 h4 (ih hb) h6 h7
  | mapNil h1 h2 h3 h4 h5 h6 h7 => exact .mapNil h1 h2 h3 h4 h5 h6 (by omega)
  | map h1 h2 h3 h4 h5 h6 h7 ih => exact .map h1 h2 h3 h4 (ih hb) h6 h7
  | item h1 h2 h3 h4 ih => exact .item h1 (by omega) h3 h4
  | items h1 h2 h3 h4 h5 h6 h7 ih ih2 => exact .items h1 (by omega) h3 h4 h5 h6 (ih2 hb)
  | itemComma h1 h2 h3 h4 h5 h6 h7 ih => exact .itemComma h1 (by omega) h3 h4 h5 h6 h7
  | value h1 h2 h3 h4 h5 h6 h7 h8 h9 ih => exact .value h1 h2 h3 h4 h5 h6 h7 (by omega) (by omega)
  | alone h1 h2 => exact .alone h1 (by omega)
  | void h1 h2 h3 h4 h5 => exact .void h1 h2 h3 h4 (by omega)
  | plain h1 ih => exact .plain (ih hb)
  | asked h1 h2 h3 h4 h5 ih => exact .asked h1 h2 h3 h4 (ih hb)
  | pair h1 h2 h3 ih => exact .pair (ih hb) h2 h3
  | pairComma h1 h2 h3 h4 h5 h6 ih => exact .pairComma (ih hb) h2 h3 h4 h5 h6
  | pairs h1 h2 h3 h4 h5 h6 ih ih2 => exact .pairs (ih hb) h2 h3 h4 h5 (ih2 hb)

theorem Fl.wide {o : Option Nat} {x : FK} (h : Fl W none x b p e q) : Fl W o x b p e q := by
  induction h with
  | atom h => exact .atom h
  | seqNil h1 h2 h3 h4 h5 h6 h7 => exact .seqNil h1 h2 h3 h4.wide h5 h6 h7
  | seq h1 h2 h3 h4 h5 h6 h7 ih => exact .seq h1 h2 h3 h4.wide ih h6 h7
  | mapNil h1 h2 h3 h4 h5 h6 h7 => exact .mapNil h1 h2 h3 h4.wide h5 h6 h7
  | map h1 h2 h3 h4 h5 h6 h7 ih => exact .map h1 h2 h3 h4.wide ih h6 h7
  | item h1 h2 h3 h4 ih => exact .item ih h2 h3.wide h4
  | items h1 h2 h3 h4 h5 h6 h7 ih ih2 => exact .items ih h2 h3.wide h4 h5 h6.wide ih2
  | itemComma h1 h2 h3 h4 h5 h6 h7 ih => exact .itemComma ih h2 h3.wide h4 h5 h6.wide h7
  | value h1 h2 h3 h4 h5 h6 h7 h8 h9 ih => exact .value h1 h2.wide h3 h4 h5.wide h6 ih h8 h9
  | alone h1 h2 => exact .alone h1 h2
  | void h1 h2 h3 h4 h5 => exact .void h1 h2.wide h3 h4 h5
  | plain h1 ih => exact .plain ih
  | asked h1 h2 h3 h4 h5 ih => exact .asked h1 h2 h3 h4 ih
  | pair h1 h2 h3 ih => exact .pair ih h2.wide h3
  | pairComma h1 h2 h3 h4 h5 h6 ih => exact .pairComma ih h2.wide h3 h4 h5.wide h6
  | pairs h1 h2 h3 h4 h5 h6 ih ih2 => exact .pairs ih h2.wide h3 h4 h5.wide ih2

/-- An entry of a mapping. -/
theorem Fl.entry_facts {o : Option Nat} (h : Fl W o .entry b p e q) :
    1 ≤ p ∧ 1 ≤ b ∧ validNode e = true ∧ solW W q = false ∧
      ((W p).type = .string ∨ (W p).type = .singleQuote ∨ (W p).type = .doubleQuote ∨ (W p).type = .alias) := by
  cases h with
  | value h1 _ _ _ _ _ h7 _ h9 => exact ⟨h1.pos, h9, rfl, h7.sol, h1.type⟩
  | alone h1 h2 => exact ⟨h1.pos, h2, rfl, h1.sol, h1.type⟩
  | void h1 h2 h3 h4 h5 =>
    have := h1.lt
    have := h2.le
    exact ⟨h1.pos, h5, rfl, solW_not (by omega) (by simp [h3]) (by simp [h3]), h1.type⟩

theorem Fl.asked_facts {o : Option Nat} (h : Fl W o .asked b p e q) :
    1 ≤ p ∧ 1 ≤ b ∧ validNode e = true ∧ solW W q = false ∧ Begins (W p) := by
  cases h with
  | plain h =>
    obtain ⟨h1, h2, h3, h4, h5⟩ := h.entry_facts
    exact ⟨h1, h2, h3, h4, by rcases h5 with h | h | h | h <;> simp [Begins, h]⟩
  | asked h1 h2 _ _ h =>
    obtain ⟨_, h3, h4, h5, _⟩ := h.entry_facts
    exact ⟨h1, h3, h4, h5, by simp [Begins, h2]⟩

theorem Fl.items_two {o : Option Nat} (h : Fl W o .items b p e q) : 2 ≤ b ∧ 1 ≤ p ∧ Begins (W p) := by
  cases h with
  | item h1 h => exact ⟨h.1, h1.pos, h1.begins⟩
  | items h1 h => exact ⟨h.1, h1.pos, h1.begins⟩
  | itemComma h1 h => exact ⟨h.1, h1.pos, h1.begins⟩

theorem Fl.pairs_one {o : Option Nat} (h : Fl W o .pairs b p e q) : 1 ≤ b ∧ 1 ≤ p ∧ Begins (W p) := by
  cases h with
  | pair h => exact ⟨h.asked_facts.2.1, h.asked_facts.1, h.asked_facts.2.2.2.2⟩
  | pairs h => exact ⟨h.asked_facts.2.1, h.asked_facts.1, h.asked_facts.2.2.2.2⟩
  | pairComma h => exact ⟨h.asked_facts.2.1, h.asked_facts.1, h.asked_facts.2.2.2.2⟩

/-- What is not on one line starts with a bracket. -/
theorem Fl.opens {o : Option Nat} (h : Fl W o .node b p e q) (hn : ¬ Fl W none .node b p e q) : isOpen (W p) = true := by
  cases h with
  | atom h => exact absurd (.atom h) hn
  | seqNil _ h => simp [isOpen, h]
  | seq _ h => simp [isOpen, h]
  | mapNil _ h => simp [isOpen, h]
  | map _ h => simp [isOpen, h]

theorem plus_le {a' z' b' : Nat} (h : ∀ i, a ≤ i → i < z → 0 < b → a' ≤ i ∧ i < z' ∧ b ≤ b') (i : Nat) : plus k a z b i ≤ plus k a' z' b' i := by
  unfold plus
  split
  · rename_i h1
    cases b with
    | zero => split <;> omega
    | succ b =>
      have := h i h1.1 h1.2 (by omega)
      rw [if_pos ⟨this.1, this.2.1⟩]
      omega
  · split <;> omega

/-! ### What the production of JSON content does -/

/-- The production rejects what is neither in quotes nor in brackets, and reads quoted texts and collections.  It fails where a
collection goes on in another line, but everything has to be on one line. -/
structure JsonDoes (json : Content σ) : Prop where
  no : ∀ (W : Toks) p k ind ctx, (W p).type ≠ .singleQuote → (W p).type ≠ .doubleQuote → isOpen (W p) = false →
    Ex W p k (json ind ctx) p k (.invalid, ind)
  quoted : ∀ {W : Toks} {d p t q k ind ctx}, Flat W → Quoted W d p t q → Flowy ctx →
    Ex W p k (json ind ctx) (q + 1) k (.text t (quoteKind d), ind)
  scroll : ∀ {W : Toks} {d n p t q k}, Flat W → Scroll W d n p t q →
    Ex W p k (json ⟨(n : Int), .strict⟩ .flowOut) (q + 1) k (.text t (quoteKind d), ⟨(n : Int), .strict⟩)
  cut : ∀ {W : Toks} {d p q k ind}, Flat W → Cut W d p q → Ex W p k (json ind .blockKey) q k (.invalid, ind)
  coll : ∀ {W : Toks} {o b p e q k ind ctx}, Plane W → Fl W o .node b p e q → isOpen (W p) = true → isOpen (W q) = false →
    (∀ i, p < i → i < q → k i + b ≤ 64) → Fits o ctx ind → Ex W p k (json ind ctx) q (plus k (p + 1) q b) (e, ind)
  fails : ∀ {W : Toks} {n b p e q k ind ctx}, Plane W → Fl W (some n) .node b p e q → ¬ Fl W none .node b p e q →
    (∀ i, p < i → i < q → k i + b ≤ 64) → Keyed ctx → ∃ r, ExV W W.up W.keep p k (json ind ctx) r (plus k (p + 1) q b) (.invalid, ind)

/-- What comes after a node. -/
def Halts (W : Toks) (o : Option Nat) (ctx : PCtx) (q : Nat) : Prop := (∃ r, Next W o q r) ∨ Keyed ctx ∧ isOpen (W q) = false

theorem Halts.closed {o : Option Nat} (h : Halts W o ctx q) : isOpen (W q) = false := by
  rcases h with ⟨r, h⟩ | h
  · exact h.closed
  · exact h.2

theorem ex_plain_key (hF : Flat W) (hx : Keyed ctx) (h : Word W p t q) :
    Ex W p k (parsePlain f ind ctx : M σ (Node × Ind)) q k (.text t .unknown, ind) := by
  have hrun := h.run.flowy hx.flowy h.halt
  have hsafe := safe_flowy hx.flowy h.str h.safe
  have one := ex_plainOneLine (σ := σ) (k := k) (f := f) hF h.str hsafe hrun
  rcases hx with rfl | rfl <;> exact Ex.bind one Ex.pure

theorem ex_plain_ends {o : Option Nat} (hF : Flat W) (hx : Fits o ctx ind) (h : Word W p t q) (hn : Halts W o ctx q) :
    Ex W p k (parsePlain f ind ctx : M σ (Node × Ind)) q k (.text t .unknown, ind) := by
  rcases hn with ⟨r, hn⟩ | hn
  · exact ex_plain_word hF hx h hn
  · exact ex_plain_key hF hn.1 h

/-- What is in quotes or in brackets is no plain scalar. -/
theorem ex_flowContent_json {l' : Nat → Nat} (hG : Ground W) (hx : Flowy ctx) (hk : k p < 64) (hs : (W p).type ≠ .string)
    (hi : isPlainIndicator (W p) = false) (hjs : Ex W p (plus k p (p + 1) 1) (json ind ctx) q l' (e, ind)) :
    Ex W p k (parseFlowContent f json ind ctx) q l' (e, ind) := by
  unfold parseFlowContent
  refine Ex.bind Ex.hasErrors ?_
  simp only [Bool.false_eq_true, if_false]
  refine Ex.bind (Ex.attemptF (ex_plain_noK hG.held hx hk hs hi) rfl) ?_
  rw [if_neg (by simp [okNode, validNode, Node.invalid])]
  exact hjs

/-- A flow node: one failure is counted at its first token, if it does not start with a word. -/
theorem ex_flowNode {o : Option Nat} (hj : JsonDoes json) (hF : Flat W) (hx : Fits o ctx ind) (h : Fl W o .node b p e q)
    (hn : Halts W o ctx q) (hk : k p < 64) (hb : ∀ i, p < i → i < q → k i + b ≤ 64) :
    Ex W p k (parseFlowNode f json ind ctx) q (plus (plus k p (p + 1) 1) (p + 1) q b) (e, ind) := by
  have hv := h.valid
  have le2 : ∀ i, plus k p (p + 1) 1 i ≤ plus (plus k p (p + 1) 1) (p + 1) q b i := le_plus
  have le3 : ∀ i, k i ≤ plus (plus k p (p + 1) 1) (p + 1) q b i := fun i => Nat.le_trans (le_plus i) (le2 i)
  have coll : isOpen (W p) = true → Ex W p k (parseFlowNode f json ind ctx) q (plus (plus k p (p + 1) 1) (p + 1) q b) (e, ind) := by
    intro ho
    have ht := isOpen_iff.1 ho
    refine ex_genericFlow (by rcases ht with h | h <;> simp [h]) (ex_flowContent_json hF.toGround hx.flowy hk
      (by rcases ht with h | h <;> simp [h]) (by rcases ht with h | h <;> simp [h, isPlainIndicator])
      (hj.coll hF.plane h ho hn.closed ?_ hx)) hv
    intro i h1 h2
    rw [plus_out (by omega)]
    exact hb i h1 h2
  cases h with
  | atom h =>
    cases h with
    | ref h => exact (ex_genericFlow_alias hF h).weaken le3
    | scal h =>
      cases h with
      | word h =>
        refine (ex_genericFlow (by simp [h.str]) ?_ hv).weaken le3
        unfold parseFlowContent
        refine Ex.bind Ex.hasErrors ?_
        simp only [Bool.false_eq_true, if_false]
        refine Ex.bind ((ex_plain_ends hF hx h hn).attemptT rfl) ?_
        exact Ex.pure
      | @quoted d _ _ _ h =>
        have hq := quote_ne h.first
        exact (ex_genericFlow (by rw [h.first]; cases d <;> simp [quoteTok]) (ex_flowContent_json hF.toGround hx.flowy hk
          (by rw [h.first]; cases d <;> simp [quoteTok])
          (by simp only [isPlainIndicator, h.first]; cases d <;> simp [quoteTok]) (hj.quoted hF h hx.flowy)) hv).weaken le2
  | seqNil _ h => exact coll (by simp [isOpen, h])
  | seq _ h => exact coll (by simp [isOpen, h])
  | mapNil _ h => exact coll (by simp [isOpen, h])
  | map _ h => exact coll (by simp [isOpen, h])

/-- Where everything has to be on one line, a flow node on several lines is none. -/
theorem ex_flowNode_fails (hj : JsonDoes json) (hP : Plane W) (hx : Keyed ctx) (h : Fl W (some n) .node b p e q)
    (hn : ¬ Fl W none .node b p e q) (hk : k p < 64) (hb : ∀ i, p < i → i < q → k i + b ≤ 64) :
    Ex W p k (parseFlowNode f json ind ctx) p (plus (plus k p (p + 1) 1) (p + 1) q b) (.invalid, ind) := by
  have ht := isOpen_iff.1 (h.opens hn)
  have t1 : (W p).type ≠ .alias := by rcases ht with h | h <;> simp [h]
  have t2 : (W p).type ≠ .string := by rcases ht with h | h <;> simp [h]
  have t3 : (W p).type ≠ .tag := by rcases ht with h | h <;> simp [h]
  have t4 : (W p).type ≠ .anchor := by rcases ht with h | h <;> simp [h]
  have t5 : isPlainIndicator (W p) = false := by rcases ht with h | h <;> simp [h, isPlainIndicator]
  obtain ⟨r, hr⟩ := hj.fails (k := plus k p (p + 1) 1) (ind := ind) hP.held h.held (fun g => hn (Fl.change (W := W.held) ⟨rfl, rfl, rfl⟩ g))
    (fun i h1 h2 => by
      rw [plus_out (by omega)]
      exact hb i h1 h2) hx
  have content : ExV W.held W.held.up W.held.keep p k (parseFlowContent f json ind ctx) r (plus (plus k p (p + 1) 1) (p + 1) q b) (.invalid, ind) := by
    unfold parseFlowContent
    refine ExV.bind (Ex.hasErrors.v (Nat.le_refl _)) ?_
    simp only [Bool.false_eq_true, if_false]
    refine ExV.bind ((Ex.attemptF (W := W.held) (ex_plain_noK hP.toGround.held hx.flowy hk t2 t5) rfl).v (Nat.le_refl _)) ?_
    rw [if_neg (by simp [okNode, validNode, Node.invalid])]
    exact hr
  unfold parseFlowNode parseGenericFlowNode
  refine Ex.bind Ex.hasErrors ?_
  simp only [Bool.false_eq_true, if_false]
  refine Ex.bind (Ex.attemptF (ex_alias_no t1) rfl) ?_
  rw [if_neg (by decide)]
  refine Ex.bind (ExV.attemptF content ⟨rfl, rfl, rfl⟩ rfl) ?_
  rw [if_neg (by simp [okNode, validNode, Node.invalid])]
  refine Ex.bind (ex_properties_no _ _ t3 t4) ?_
  exact Ex.pure

/-! ### Nothing -/

/-- Nothing can start at the token: the end of a line, a comma, or a closing bracket. -/
structure Blank (t : Tok) : Prop where
  str : t.type ≠ .string
  ali : t.type ≠ .alias
  tag : t.type ≠ .tag
  anc : t.type ≠ .anchor
  sq : t.type ≠ .singleQuote
  dq : t.type ≠ .doubleQuote
  col : t.type ≠ .mappingValue
  ask : t.type ≠ .mappingKey
  ind : isPlainIndicator t = false
  shut : isOpen t = false

theorem Blank.of {t : Tok} (h : t.type = .sequenceEnd ∨ t.type = .mappingEnd ∨ Mute t) : Blank t := by
  rcases h with h | h | h | h | h | h | h <;> constructor <;> simp [h, isPlainIndicator, isOpen]

theorem Blank.comma {t : Tok} (h : t.type = .collectEntry) : Blank t := by
  constructor <;> simp [h, isPlainIndicator, isOpen]

theorem Mute.com {t : Tok} (h : Mute t) : t.type ≠ .collectEntry := by
  rcases h with h | h | h | h | h <;> simp [h]

theorem Mute.blank {t : Tok} (h : Mute t) : Blank t := .of (.inr (.inr h))

theorem ex_flowNode_no (hx : Flowy ctx) (hj : JsonDoes json) (hG : Ground W) (h : Blank (W p)) (hk : k p < 64) :
    Ex W p k (parseFlowNode f json ind ctx) p (plus k p (p + 1) 1) (.invalid, ind) := by
  refine ex_genericFlow_no h.shut h.ali h.tag h.anc (q := p) ?_
  unfold parseFlowContent
  refine Ex.bind Ex.hasErrors ?_
  simp only [Bool.false_eq_true, if_false]
  refine Ex.bind (Ex.attemptN (ex_plain_noK hG hx hk h.str h.ind) (.inr h.shut) rfl) ?_
  rw [if_neg (by simp [okNode, validNode, Node.invalid])]
  exact hj.no _ _ _ _ _ h.sq h.dq h.shut

/-! ### Entries of sequences -/

theorem ex_separateValue_no (h : (W p).type ≠ .mappingValue) :
    Ex W p k (parseFlowMappingSeparateValue f json ind ctx) p k (.invalid, ind) := by
  unfold parseFlowMappingSeparateValue
  refine Ex.bind Ex.hasErrors ?_
  simp only [Bool.false_eq_true, if_false]
  refine Ex.bind Ex.tok ?_
  rw [if_pos h]
  exact Ex.pure

theorem ex_adjacentValue_no (h : (W p).type ≠ .mappingValue) :
    Ex W p k (parseFlowMappingAdjacentValue f json ind ctx) p k (.invalid, ind) := by
  unfold parseFlowMappingAdjacentValue
  refine Ex.bind Ex.hasErrors ?_
  simp only [Bool.false_eq_true, if_false]
  refine Ex.bind Ex.tok ?_
  rw [if_pos h]
  exact Ex.pure

theorem ex_emptyKeyEntry_no (h : (W p).type ≠ .mappingValue) :
    Ex W p k (parseFlowMappingEmptyKeyEntry f json ind ctx) p k (.invalid, ind) := by
  unfold parseFlowMappingEmptyKeyEntry
  refine Ex.bind Ex.hasErrors ?_
  simp only [Bool.false_eq_true, if_false]
  exact Ex.bind (ex_separateValue_no h) Ex.pure

/-- No plain scalar is followed by a colon, and no JSON key is there. -/
theorem ex_flowPair_noV {V : Toks} {r1 r2 : Nat} {l1 l2 : Nat → Nat} {e1 : Node} (hn : W.hold = true ∨ isOpen (W p) = false)
    (h1 : (W p).type ≠ .mappingValue) (h2 : (W p).type ≠ .mappingKey)
    (hy : Ex W p k (parseImplicitYAMLKey f .flowKey : M σ Node) r1 l1 e1) (hy2 : validNode e1 = false ∨ (W r1).type ≠ .mappingValue)
    (hV : Like V W) (js : ExV W V W.keep p l1 (parseFlowPairJSONKeyEntry f json ind ctx) r2 l2 (.invalid, ind)) :
    Ex W p k (parseFlowPair f json ind ctx) p l2 (.invalid, ind) := by
  have yaml : Ex W p k (parseFlowPairYAMLKeyEntry f json ind ctx) r1 l1 (.invalid, ind) := by
    unfold parseFlowPairYAMLKeyEntry
    refine Ex.bind Ex.hasErrors ?_
    simp only [Bool.false_eq_true, if_false]
    refine Ex.bind hy ?_
    cases hv : validNode e1 with
    | false =>
      simp only [Bool.not_false, if_true]
      exact Ex.pure
    | true =>
      simp only [Bool.not_true, Bool.false_eq_true, if_false]
      exact Ex.bind (ex_separateValue_no (hy2.resolve_left (by simp [hv]))) Ex.pure
  have entry : ExV W V W.keep p k (parseFlowPairEntry f json ind ctx) r2 l2 (.invalid, ind) := by
    unfold parseFlowPairEntry
    refine ExV.bind (Ex.hasErrors.v (Nat.le_refl _)) ?_
    simp only [Bool.false_eq_true, if_false]
    refine ExV.bind ((yaml.attemptN hn rfl).v (Nat.le_refl _)) ?_
    rw [if_neg (by simp [okNode, validNode, Node.invalid])]
    refine ExV.bind (((ex_emptyKeyEntry_no h1).attemptN hn rfl).v (Nat.le_refl _)) ?_
    rw [if_neg (by simp [okNode, validNode, Node.invalid])]
    exact js
  unfold parseFlowPair
  refine Ex.bind Ex.hasErrors ?_
  simp only [Bool.false_eq_true, if_false]
  refine Ex.bind (ExV.attemptN entry hV hn rfl) ?_
  rw [if_neg (by simp [okNode, validNode, Node.invalid])]
  refine Ex.bind Ex.tok ?_
  rw [if_pos h2]
  exact Ex.pure

/-- Nothing that could be a key is followed by a colon. -/
theorem ex_flowPair_no {r1 r2 : Nat} {l1 l2 : Nat → Nat} {e1 e2 : Node} (hn : W.hold = true ∨ isOpen (W p) = false)
    (h1 : (W p).type ≠ .mappingValue) (h2 : (W p).type ≠ .mappingKey)
    (hy : Ex W p k (parseImplicitYAMLKey f .flowKey : M σ Node) r1 l1 e1) (hy2 : validNode e1 = false ∨ (W r1).type ≠ .mappingValue)
    (hj : Ex W p l1 (parseImplicitJSONKey f json .flowKey) r2 l2 e2) (hj2 : validNode e2 = false ∨ (W r2).type ≠ .mappingValue) :
    Ex W p k (parseFlowPair f json ind ctx) p l2 (.invalid, ind) := by
  have js : Ex W p l1 (parseFlowPairJSONKeyEntry f json ind ctx) r2 l2 (.invalid, ind) := by
    unfold parseFlowPairJSONKeyEntry
    refine Ex.bind Ex.hasErrors ?_
    simp only [Bool.false_eq_true, if_false]
    refine Ex.bind hj ?_
    cases hv : validNode e2 with
    | false =>
      simp only [Bool.not_false, if_true]
      exact Ex.pure
    | true =>
      simp only [Bool.not_true, Bool.false_eq_true, if_false]
      exact Ex.bind (ex_adjacentValue_no (hj2.resolve_left (by simp [hv]))) Ex.pure
  exact ex_flowPair_noV hn h1 h2 hy hy2 ⟨rfl, rfl, rfl⟩ (js.v (Nat.le_refl _))

/-- A failing production of JSON content makes no JSON key, even if it ends at another level. -/
theorem ex_implicitJSONKey_noV {V : Toks} (h1 : (W p).type ≠ .tag) (h2 : (W p).type ≠ .anchor)
    (hj : ExV W V W.keep p k (json ⟨0, .strict⟩ ctx) q l (.invalid, ⟨0, .strict⟩)) :
    ExV W V W.keep p k (parseImplicitJSONKey f json ctx : M σ Node) q l .invalid := by
  unfold parseImplicitJSONKey
  refine ExV.bind (Ex.hasErrors.v (Nat.le_refl _)) ?_
  simp only [Bool.false_eq_true, if_false]
  refine ExV.bind (V := V) (p' := q) (j := l) (a := (.invalid, ⟨0, .strict⟩)) ?_ ?_
  · unfold parseFlowJSONNode
    refine ExV.bind (Ex.hasErrors.v (Nat.le_refl _)) ?_
    simp only [Bool.false_eq_true, if_false]
    refine ExV.bind ((Ex.attemptF (q := p) (l := k) (a := (.invalid, false, ⟨0, .strict⟩))
      (Ex.bind (ex_properties_no _ _ h1 h2) Ex.pure) rfl).v (Nat.le_refl _)) ?_
    refine ExV.bind hj ?_
    exact ExV.pure
  · exact ExV.pure

/-- What is no plain scalar is no YAML key. -/
theorem ex_yamlNode_no (hG : Ground W) (hx : Flowy ctx) (hk : k p < 64) (hn : W.hold = true ∨ isOpen (W p) = false)
    (hs : (W p).type ≠ .string) (ha : (W p).type ≠ .alias) (h1 : (W p).type ≠ .tag) (h2 : (W p).type ≠ .anchor)
    (hi : isPlainIndicator (W p) = false) :
    Ex W p k (parseFlowYAMLNode f ind ctx : M σ (Node × Ind)) p (plus k p (p + 1) 1) (.invalid, ind) := by
  unfold parseFlowYAMLNode parseGenericFlowNode
  refine Ex.bind Ex.hasErrors ?_
  simp only [Bool.false_eq_true, if_false]
  refine Ex.bind (Ex.attemptF (ex_alias_no ha) rfl) ?_
  rw [if_neg (by decide)]
  refine Ex.bind (Ex.attemptN (ex_plain_noK hG hx hk hs hi) hn rfl) ?_
  rw [if_neg (by simp [okNode, validNode, Node.invalid])]
  refine Ex.bind (ex_properties_no _ _ h1 h2) ?_
  exact Ex.pure

/-- A word or an alias is a YAML node. -/
theorem ex_yamlNode {o : Option Nat} (hF : Flat W) (hx : Fits o ctx ind) (h : Atom W p e q) (hs : (W p).type = .string ∨ (W p).type = .alias)
    (hn : Halts W o ctx q) :
    Ex W p k (parseFlowYAMLNode f ind ctx : M σ (Node × Ind)) q k (e, ind) := by
  have hv := h.valid
  cases h with
  | ref h => exact ex_genericFlow_alias hF h
  | scal h =>
    cases h with
    | word h => exact ex_genericFlow (by simp [h.str]) (ex_plain_ends hF hx h hn) hv
    | @quoted d _ _ _ h => rw [h.first] at hs; cases d <;> simp [quoteTok] at hs

theorem flowKey_flowy : Flowy .flowKey := .inr (.inr (.inr rfl))

theorem flowKey_keyed : Keyed .flowKey := .inr rfl

/-- A sequence in brackets which goes on in another line is no key. -/
theorem ex_flowPair_fails (hj : JsonDoes json) (hP : Plane W) (h : Fl W (some n) .node b p e q)
    (hn : ¬ Fl W none .node b p e q) (hk : k p < 64) (hb : ∀ i, p < i → i < q → k i + b ≤ 64) :
    Ex W p k (attempt okNode (parseFlowPair f json ind ctx)) p (plus (plus k p (p + 1) 1) (p + 1) q b) (.invalid, ind) := by
  have ht := isOpen_iff.1 (h.opens hn)
  have t1 : (W p).type ≠ .alias := by rcases ht with h | h <;> simp [h]
  have t2 : (W p).type ≠ .string := by rcases ht with h | h <;> simp [h]
  have t3 : (W p).type ≠ .tag := by rcases ht with h | h <;> simp [h]
  have t4 : (W p).type ≠ .anchor := by rcases ht with h | h <;> simp [h]
  have t5 : isPlainIndicator (W p) = false := by rcases ht with h | h <;> simp [h, isPlainIndicator]
  have t6 : (W p).type ≠ .mappingValue := by rcases ht with h | h <;> simp [h]
  have t7 : (W p).type ≠ .mappingKey := by rcases ht with h | h <;> simp [h]
  obtain ⟨r, hr⟩ := hj.fails (k := plus k p (p + 1) 1) (ind := ⟨0, .strict⟩) hP.held h.held (fun g => hn (Fl.change (W := W.held) ⟨rfl, rfl, rfl⟩ g))
    (fun i h1 h2 => by
      rw [plus_out (by omega)]
      exact hb i h1 h2) flowKey_keyed
  refine Ex.attemptF (q := p) ?_ rfl
  refine ex_flowPair_noV (W := W.held) (V := W.held.up) (.inl rfl) t6 t7
    (ex_implicitYAMLKey_no (ex_yamlNode_no hP.toGround.held flowKey_flowy hk (.inl rfl) t2 t1 t3 t4 t5)) (.inl rfl) ⟨rfl, rfl, rfl⟩ (r2 := r) ?_
  unfold parseFlowPairJSONKeyEntry
  refine ExV.bind (Ex.hasErrors.v (Nat.le_refl _)) ?_
  simp only [Bool.false_eq_true, if_false]
  refine ExV.bind (ex_implicitJSONKey_noV t3 t4 hr) ?_
  exact ExV.pure

/-- What follows a node in the line does not make it a key. -/
def NoKey (W : Toks) (q : Nat) : Prop := ∃ i, Sp W q i ∧ isOpen (W (q + i)) = false ∧ (W (q + i)).type ≠ .mappingValue

/-- An entry of a sequence. -/
theorem ex_flowSequenceEntry {o : Option Nat} {c : Nat} (hj : JsonDoes json) (hF : Flat W) (hx : Fits o ctx ind) (h : Fl W o .node c p e q)
    (hc : 2 ≤ b ∧ 2 * c ≤ b) (hn : Halts W o ctx q) (hm : NoKey W q) (hb : ∀ i, p ≤ i → i < q → k i + b ≤ 64) :
    Ex W p k (parseFlowSequenceEntry f json ind ctx) q (plus k p q b) (e, ind) := by
  have hv := h.valid
  have hlt := h.le
  have hpos := h.pos
  have ty := h.type
  have t1 : (W p).type ≠ .mappingValue := by rcases ty with h | h | h | h | h | h <;> simp [h]
  have t2 : (W p).type ≠ .mappingKey := by rcases ty with h | h | h | h | h | h <;> simp [h]
  have t3 : (W p).type ≠ .tag := by rcases ty with h | h | h | h | h | h <;> simp [h]
  have t4 : (W p).type ≠ .anchor := by rcases ty with h | h | h | h | h | h <;> simp [h]
  have t5 : isPlainIndicator (W p) = false := by rcases ty with h | h | h | h | h | h <;> simp [isPlainIndicator, h]
  obtain ⟨i, hns, hshut, hm⟩ := hm
  have hnc := hn.closed
  unfold parseFlowSequenceEntry
  refine Ex.bind Ex.hasErrors ?_
  simp only [Bool.false_eq_true, if_false]
  by_cases hs : (W p).type = .string ∨ (W p).type = .alias
  · -- a word or an alias
    have ho : isOpen (W p) = false := by rcases hs with h | h <;> simp [isOpen, h]
    have ha : Atom W p e q := by
      cases h with
      | atom h => exact h
      | seqNil _ h => simp [h] at hs
      | seq _ h => simp [h] at hs
      | mapNil _ h => simp [h] at hs
      | map _ h => simp [h] at hs
    have pair : Ex W p k (parseFlowPair f json ind ctx) p k (.invalid, ind) := by
      refine ex_flowPair_no (.inr ho) t1 t2
        (ex_implicitYAMLKey_of hF hv (ex_yamlNode (o := none) hF flowKey_flowy ha hs (.inr ⟨flowKey_keyed, hnc⟩)) hns) (.inr hm)
        (ex_implicitJSONKey_no (ex_flowJSONNode t3 t4 (hj.no _ _ _ _ _ ?_ ?_ ho))) (.inl rfl)
      · rcases hs with h | h <;> simp [h]
      · rcases hs with h | h <;> simp [h]
    refine Ex.bind (pair.attemptN (.inr ho) rfl) ?_
    rw [if_neg (by simp [okNode, validNode, Node.invalid])]
    refine Ex.weaken ?_ le_plus
    cases ha with
    | ref h => exact ex_genericFlow_alias hF h
    | scal h =>
      cases h with
      | word h =>
        refine ex_genericFlow (by simp [h.str]) ?_ hv
        unfold parseFlowContent
        refine Ex.bind Ex.hasErrors ?_
        simp only [Bool.false_eq_true, if_false]
        refine Ex.bind ((ex_plain_ends hF hx h hn).attemptT rfl) ?_
        exact Ex.pure
      | @quoted d _ _ _ hq => rw [hq.first] at hs; cases d <;> simp [quoteTok] at hs
  · -- what starts like JSON
    obtain ⟨s1, s2⟩ := not_or.1 hs
    have kp := hb p (Nat.le_refl _) hlt
    have pair : Ex W p k (attempt okNode (parseFlowPair f json ind ctx)) p (plus (plus k p (p + 1) 1) (p + 1) q c) (.invalid, ind) := by
      by_cases hin : Fl W none .node c p e q
      · cases ho : isOpen (W p) with
        | true =>
          obtain ⟨s, hsep⟩ := ex_sepInLine_optH (σ := σ) (W := W.held) (k := plus (plus k p (p + 1) 1) (p + 1) q c) (f := f) hF.held
            (fun _ => hshut) hns
          refine Ex.attemptF (q := p) ?_ rfl
          refine ex_flowPair_no (.inl rfl) t1 t2 (ex_implicitYAMLKey_no (ex_yamlNode_no hF.held flowKey_flowy (by omega) (.inl rfl) s1 s2 t3 t4 t5))
            (.inl rfl) (r2 := q + i) (e2 := e) ?_ (.inr hm)
          unfold parseImplicitJSONKey
          refine Ex.bind Ex.hasErrors ?_
          simp only [Bool.false_eq_true, if_false]
          refine Ex.bind (ex_flowJSONNode t3 t4 (hj.coll (o := none) hF.plane.held hin.held ho hnc ?_ flowKey_flowy)) ?_
          · intro i h1 h2
            rw [plus_out (by omega)]
            have := hb i (by omega) h2
            omega
          · rw [if_pos hv, if_neg (by simp [okNode, hv])]
            exact Ex.bind hsep Ex.pure
        | false =>
          refine Ex.attemptN (q := p) ?_ (.inr ho) rfl
          refine ex_flowPair_no (.inr ho) t1 t2 (ex_implicitYAMLKey_no (ex_yamlNode_no hF.toGround flowKey_flowy (by omega) (.inr ho) s1 s2 t3 t4 t5))
            (.inl rfl) (r2 := q + i) (e2 := e) ?_ (.inr hm)
          cases h with
          | atom h =>
            cases h with
            | ref h => exact absurd h.sign s2
            | scal h =>
              cases h with
              | word h => exact absurd h.str s1
              | quoted h =>
                refine Ex.weaken ?_ le_plus
                have := ex_flowJSONNode (σ := σ) (f := f) t3 t4 (hj.quoted (ind := ⟨0, .strict⟩) (k := plus k p (p + 1) 1) hF h flowKey_flowy)
                exact ex_implicitJSONKey_of hF hv this hns
          | seqNil _ h => simp [isOpen, h] at ho
          | seq _ h => simp [isOpen, h] at ho
          | mapNil _ h => simp [isOpen, h] at ho
          | map _ h => simp [isOpen, h] at ho
      · cases o with
        | none => exact absurd h hin
        | some n =>
          refine ex_flowPair_fails hj hF.plane h hin (by omega) ?_
          intro i h1 h2
          have := hb i (by omega) h2
          omega
    refine Ex.bind pair ?_
    rw [if_neg (by simp [okNode, validNode, Node.invalid])]
    refine (ex_flowNode hj hF hx h hn ?_ ?_).weaken ?_
    · rw [plus_out (by omega), plus_in (Nat.le_refl _) (by omega)]
      omega
    · intro i h1 h2
      rw [plus_in (by omega) h2, plus_out (by omega)]
      have := hb i (by omega) h2
      omega
    · intro i
      unfold plus
      repeat' split
      all_goals omega

/-- Where everything has to be on one line, an entry on several lines is none. -/
theorem ex_flowSequenceEntry_fails {c : Nat} (hj : JsonDoes json) (hP : Plane W) (hx : Keyed ctx) (h : Fl W (some n) .node c p e q)
    (hn : ¬ Fl W none .node c p e q) (hc : 2 ≤ b ∧ 2 * c ≤ b) (hb : ∀ i, p ≤ i → i < q → k i + b ≤ 64) :
    Ex W p k (parseFlowSequenceEntry f json ind ctx) p (plus k p q b) (.invalid, ind) := by
  have hlt := h.le
  have kp := hb p (Nat.le_refl _) hlt
  unfold parseFlowSequenceEntry
  refine Ex.bind Ex.hasErrors ?_
  simp only [Bool.false_eq_true, if_false]
  refine Ex.bind (ex_flowPair_fails hj hP h hn (by omega) ?_) ?_
  · intro i h1 h2
    have := hb i (by omega) h2
    omega
  rw [if_neg (by simp [okNode, validNode, Node.invalid])]
  refine (ex_flowNode_fails hj hP hx h hn ?_ ?_).weaken ?_
  · rw [plus_out (by omega), plus_in (Nat.le_refl _) (by omega)]
    omega
  · intro i h1 h2
    rw [plus_in (by omega) h2, plus_out (by omega)]
    have := hb i (by omega) h2
    omega
  · intro i
    unfold plus
    repeat' split
    all_goals omega

/-- No entry. -/
theorem ex_flowSequenceEntry_no (hx : Flowy ctx) (hj : JsonDoes json) (hG : Ground W) (h : Blank (W p)) (hk : k p + 2 ≤ 64) :
    Ex W p k (parseFlowSequenceEntry f json ind ctx) p (plus k p (p + 1) 2) (.invalid, ind) := by
  have pair : Ex W p k (parseFlowPair f json ind ctx) p (plus k p (p + 1) 1) (.invalid, ind) :=
    ex_flowPair_no (.inr h.shut) h.col h.ask
      (ex_implicitYAMLKey_no (ex_yamlNode_no hG flowKey_flowy (by omega) (.inr h.shut) h.str h.ali h.tag h.anc h.ind))
      (.inl rfl)
      (ex_implicitJSONKey_no (ex_flowJSONNode h.tag h.anc (hj.no _ _ _ _ _ h.sq h.dq h.shut))) (.inl rfl)
  unfold parseFlowSequenceEntry
  refine Ex.bind Ex.hasErrors ?_
  simp only [Bool.false_eq_true, if_false]
  refine Ex.bind (pair.attemptN (.inr h.shut) rfl) ?_
  rw [if_neg (by simp [okNode, validNode, Node.invalid])]
  have kp : plus k p (p + 1) 1 p < 64 := by rw [plus_in (Nat.le_refl _) (by omega)]; omega
  refine (ex_flowNode_no hx hj hG h kp).weaken ?_
  intro i
  unfold plus
  repeat' split
  all_goals omega

theorem ex_sequenceEntries_no (hx : Flowy ctx) (hj : JsonDoes json) (hG : Ground W) (h : Blank (W p)) (hk : k p + 2 ≤ 64) :
    Ex W p k (parseFlowSequenceEntries f json ind ctx) p (plus k p (p + 1) 2) (.invalid, ind) := by
  unfold parseFlowSequenceEntries
  refine Ex.bind Ex.hasErrors ?_
  simp only [Bool.false_eq_true, if_false]
  exact Ex.bind (ex_flowSequenceEntry_no hx hj hG h hk) Ex.pure

/-- One more entry. -/
def seqBody (f : Nat) (json : Content σ) (ctx : PCtx) (x : List Node × Ind) : M σ (Bool × List Node × Ind) := do
  let i ← optSeparate f x.2 ctx
  let t ← tok
  if t.type ≠ .collectEntry then pure (false, x.1, i) else do
  next
  let i ← optSeparate f i ctx
  let n ← attempt okNode (parseFlowSequenceEntry f json i ctx)
  if okNode n then pure (true, x.1 ++ [n.1], n.2) else pure (false, x.1, n.2)

/-- No comma. -/
theorem ex_seqBody_stop {es : List Node} (hs : Ex W p k (optSeparate f ind ctx : M σ Ind) q k ind) (h : (W q).type ≠ .collectEntry) :
    Ex W p k (seqBody f json ctx (es, ind)) q k (false, es, ind) := by
  refine Ex.bind hs ?_
  refine Ex.bind Ex.tok ?_
  rw [if_pos h]
  exact Ex.pure

/-- The comma, and what comes after it. -/
theorem ex_seqBody_comma {es : List Node} {y : Node} {s : Nat} (hF : Flat W) (hs : Ex W p k (optSeparate f ind ctx : M σ Ind) s k ind)
    (h : (W s).type = .collectEntry) (hc : Calm W s) (hs2 : Ex W (s + 1) k (optSeparate f ind ctx : M σ Ind) a k ind)
    (hy : Ex W a k (attempt okNode (parseFlowSequenceEntry f json ind ctx)) q l (y, ind)) :
    Ex W p k (seqBody f json ctx (es, ind)) q l (validNode y, if validNode y then es ++ [y] else es, ind) := by
  refine Ex.bind hs ?_
  refine Ex.bind Ex.tok ?_
  rw [if_neg (by simp [h])]
  refine Ex.bind (Ex.next hF hc (.of h)) ?_
  refine Ex.bind hs2 ?_
  refine Ex.bind hy ?_
  cases hv : validNode y with
  | true => rw [if_pos (show okNode (y, ind) = true from hv)]; exact Ex.pure
  | false => rw [if_neg (by simp [okNode, hv])]; exact Ex.pure

theorem Next.noKey {o : Option Nat} (h : Next W o q r) (hm : (W r).type ≠ .mappingValue) : NoKey W q := by
  obtain ⟨i, h1, h2, h3⟩ := h.stop
  exact ⟨i, h1, h2, h3 hm⟩

/-- The entries of a sequence: the first of them, and what is read after it. -/
theorem Fl.items_run {o : Option Nat} {x : FK} (hx : Fits o ctx ind) (hj : JsonDoes json) (hF : Flat W) (h : Fl W o x b p v q) : x = .items →
    ∃ es, v = .sequence es ∧ ∀ k : Nat → Nat, (∀ i, p ≤ i → i ≤ q → k i + b ≤ 64) → ∃ e es' r, es = e :: es' ∧ validNode e = true ∧
      (∀ f, Ex W p k (parseFlowSequenceEntry f json ind ctx) r (plus k p r b) (e, ind)) ∧
      ∀ f f' acc, Ex W r (plus k p r b) (loop f' (seqBody f json ctx) (acc ++ [e], ind)) q (plus k p (q + 1) b) (acc ++ es, ind) := by
  induction h with
  | atom => nofun
  | seqNil => nofun
  | seq => nofun
  | mapNil => nofun
  | map => nofun
  | value => nofun
  | alone => nofun
  | void => nofun
  | plain => nofun
  | asked => nofun
  | pair => nofun
  | pairComma => nofun
  | pairs => nofun
  | @item b c p q z e h1 h2 h3 h4 _ =>
    intro _
    have nx : Next W o q z := ⟨h3, by simp [h4], by simp [isOpen, h4]⟩
    have hz := h3.le
    have hpos := h1.pos
    have hq := h1.le
    refine ⟨_, rfl, fun k hk => ⟨e, [], q, rfl, h1.valid, fun f => ?_, fun f f' acc => ?_⟩⟩
    · exact ex_flowSequenceEntry hj hF hx h1 h2 (.inl ⟨z, nx⟩) (nx.noKey (by simp [h4])) (fun i a b => hk i a (by omega))
    · refine Ex.weaken ?_ (plus_le (z := q) (fun i h1 h2 _ => ⟨h1, by omega, Nat.le_refl _⟩))
      exact Ex.loopStop (ex_seqBody_stop (ex_optSep hF (by omega) hx h3 h1.sol) (by simp [h4]))
  | @itemComma b c p q s z e h1 h2 h3 h4 h5 h6 h7 _ =>
    intro _
    have nx : Next W o q s := ⟨h3, by simp [h4], by simp [isOpen, h4]⟩
    have hq := h1.le
    have hpos := h1.pos
    have hs := h3.le
    have ha := h6.le
    refine ⟨_, rfl, fun k hk => ⟨e, [], q, rfl, h1.valid, fun f => ?_, fun f f' acc => ?_⟩⟩
    · exact ex_flowSequenceEntry hj hF hx h1 h2 (.inl ⟨s, nx⟩) (nx.noKey (by simp [h4])) (fun i a b => hk i a (by omega))
    · have body := ex_seqBody_comma (es := acc ++ [e]) hF (ex_optSep (f := f) (k := plus k p q b) hF (by omega) hx h3 h1.sol) h4 h5
        (ex_optSep hF (by omega) hx h6 (solW_not (by omega) (by simp [h4]) (by simp [h4])))
        ((ex_flowSequenceEntry_no (f := f) hx.flowy hj hF.toGround (.of (.inl h7)) (by
          rw [plus_out (by omega)]
          have := hk z (by omega) (by omega)
          omega)).attemptN (.inr (by simp [isOpen, h7])) rfl)
      refine (Ex.loopStop body).weaken ?_
      intro i'
      unfold plus
      repeat' split
      all_goals omega
  | @items b c p q s a r e es h1 h2 h3 h4 h5 h6 h7 _ ih =>
    intro _
    obtain ⟨es2, he, ih⟩ := ih rfl
    cases he
    have nx : Next W o q s := ⟨h3, by simp [h4], by simp [isOpen, h4]⟩
    have hr := h7.le
    have hq := h1.le
    have hpos := h1.pos
    have hs := h3.le
    have ha := h6.le
    refine ⟨_, rfl, fun k hk => ⟨e, es, q, rfl, h1.valid, fun f => ?_, fun f f' acc => ?_⟩⟩
    · exact ex_flowSequenceEntry hj hF hx h1 h2 (.inl ⟨s, nx⟩) (nx.noKey (by simp [h4])) (fun i a b => hk i a (by omega))
    · obtain ⟨e', es', r', hes, hv, hent, hloop⟩ := ih (plus k p q b) (fun i' h1 h2 => by
        rw [plus_out (by omega)]
        exact hk i' (by omega) h2)
      have hw : ∀ i', plus (plus k p q b) a (r + 1) b i' ≤ plus k p (r + 1) b i' := by
        intro i'
        unfold plus
        repeat' split
        all_goals omega
      refine Ex.weaken ?_ hw
      have body := ex_seqBody_comma (es := acc ++ [e]) hF (ex_optSep (f := f) (k := plus k p q b) hF (by omega) hx h3 h1.sol) h4 h5
        (ex_optSep hF (by omega) hx h6 (solW_not (by omega) (by simp [h4]) (by simp [h4]))) ((hent f).attemptT hv)
      rw [hv, if_pos rfl] at body
      refine Ex.loopGo body (fun f2 => ?_)
      have := hloop f f2 (acc ++ [e])
      rw [List.append_assoc acc [e] es] at this
      exact this

theorem ex_sequenceEntries {o : Option Nat} {es : List Node} (hx : Fits o ctx ind) (hj : JsonDoes json) (hF : Flat W)
    (h : Fl W o .items b p (.sequence es) q) (hk : ∀ i, p ≤ i → i ≤ q → k i + b ≤ 64) :
    Ex W p k (parseFlowSequenceEntries f json ind ctx) q (plus k p (q + 1) b) (.sequence es, ind) := by
  obtain ⟨es2, he, h⟩ := h.items_run hx hj hF rfl
  cases he
  obtain ⟨e, es', r, he, hv, hent, hloop⟩ := h k hk
  unfold parseFlowSequenceEntries
  refine Ex.bind Ex.hasErrors ?_
  simp only [Bool.false_eq_true, if_false]
  refine Ex.bind (hent f) ?_
  rw [if_neg (by simp [okNode, hv])]
  exact Ex.bind (hloop f f []) Ex.pure

/-- The entries of a sequence on several lines, where everything has to be on one line: the first of them is rejected, or the loop
ends before the closing bracket. -/
theorem Fl.items_fail {o : Option Nat} {x : FK} (hx : Keyed ctx) (hj : JsonDoes json) (hF : Flat W) (h : Fl W o x b p v q) : x = .items →
    ¬ Fl W none x b p v q → ∀ k : Nat → Nat, (∀ i, p ≤ i → i < q → k i + b ≤ 64) →
      (isOpen (W p) = true ∧ ∀ f, Ex W.held p k (parseFlowSequenceEntry f json ind ctx) p (plus k p q b) (.invalid, ind)) ∨
      ∃ e r r', validNode e = true ∧ (W r').type ≠ .sequenceEnd ∧
        (∀ f, Ex W p k (parseFlowSequenceEntry f json ind ctx) r (plus k p r b) (e, ind)) ∧
        ∀ acc, ∃ acc', ∀ f f', Ex W r (plus k p r b) (loop f' (seqBody f json ctx) (acc ++ [e], ind)) r' (plus k p q b) (acc', ind) := by
  cases o with
  | none => intro _ h2; exact absurd h h2
  | some n =>
  induction h with
  | atom => nofun
  | seqNil => nofun
  | seq => nofun
  | mapNil => nofun
  | map => nofun
  | value => nofun
  | alone => nofun
  | void => nofun
  | plain => nofun
  | asked => nofun
  | pair => nofun
  | pairComma => nofun
  | pairs => nofun
  | @item b c p q z e h1 h2 h3 h4 _ =>
    intro _ hnot k hk
    have hz := h3.le
    by_cases hin : Fl W none .node c p e q
    · rcases h3.or with h3' | ⟨i, g1, g2, g3⟩
      · exact absurd (.item hin h2 h3' h4) hnot
      · have hsh := g1.closed g2.closed
        refine .inr ⟨e, q, q + i, h1.valid, ?_, fun f => ?_, fun acc => ⟨acc ++ [e], fun f f' => ?_⟩⟩
        · rcases g2 with h | h | h | h | h <;> simp [h]
        · exact ex_flowSequenceEntry hj hF hx.fits hin h2 (.inr ⟨hx, hsh⟩) ⟨i, g1, g2.closed, g2.noColon⟩ (fun i a b => hk i a (by omega))
        · refine Ex.weaken ?_ (plus_le (z := q) (fun i h1 h2 _ => ⟨h1, by omega, Nat.le_refl _⟩))
          exact Ex.loopStop (ex_seqBody_stop (ex_optSep_key hF hx g1) g2.com)
    · refine .inl ⟨h1.opens hin, fun f => ?_⟩
      have hin' : ¬ Fl W.held none .node c p e q := fun g => hin (Fl.change (W := W.held) ⟨rfl, rfl, rfl⟩ g)
      exact (ex_flowSequenceEntry_fails hj hF.plane.held hx h1.held hin' h2 (fun i g1 g2 => hk i g1 (by omega))).weaken
        (plus_le (z := q) (fun i h1 h2 _ => ⟨h1, by omega, Nat.le_refl _⟩))
  | @itemComma b c p q s z e h1 h2 h3 h4 h5 h6 h7 _ =>
    intro _ hnot k hk
    have hq := h1.le
    have hpos := h1.pos
    have hs := h3.le
    have ha := h6.le
    by_cases hin : Fl W none .node c p e q
    · rcases h3.or with h3' | ⟨i, g1, g2, g3⟩
      · have nx : Next W none q s := ⟨h3', by simp [h4], by simp [isOpen, h4]⟩
        have ent : ∀ f, Ex W p k (parseFlowSequenceEntry f json ind ctx) q (plus k p q b) (e, ind) := fun f =>
          ex_flowSequenceEntry hj hF hx.fits hin h2 (.inl ⟨s, nx⟩) (nx.noKey (by simp [h4])) (fun i a b => hk i a (by omega))
        have sep1 : ∀ {f k}, Ex W q k (optSeparate f ind ctx : M σ Ind) s k ind := ex_optSep hF (by omega) hx.fits h3' h1.sol
        rcases h6.or with h6' | ⟨i, g1, g2, g3⟩
        · exact absurd (.itemComma hin h2 h3' h4 h5 h6' h7) hnot
        · refine .inr ⟨e, q, s + 1 + i, h1.valid, ?_, ent, fun acc => ⟨acc ++ [e], fun f f' => ?_⟩⟩
          · rcases g2 with h | h | h | h | h <;> simp [h]
          · have body := ex_seqBody_comma (es := acc ++ [e]) (k := plus k p q b) hF (sep1 (f := f)) h4 h5 (ex_optSep_key hF hx g1)
              ((ex_flowSequenceEntry_no (f := f) hx.flowy hj hF.toGround g2.blank (by
                rw [plus_out (by omega)]
                have := hk (s + 1 + i) (by omega) (by omega)
                omega)).attemptN (.inr g2.closed) rfl)
            refine (Ex.loopStop body).weaken ?_
            intro i'
            unfold plus
            repeat' split
            all_goals omega
      · have hsh := g1.closed g2.closed
        refine .inr ⟨e, q, q + i, h1.valid, ?_, fun f => ?_, fun acc => ⟨acc ++ [e], fun f f' => ?_⟩⟩
        · rcases g2 with h | h | h | h | h <;> simp [h]
        · exact ex_flowSequenceEntry hj hF hx.fits hin h2 (.inr ⟨hx, hsh⟩) ⟨i, g1, g2.closed, g2.noColon⟩ (fun i a b => hk i a (by omega))
        · refine Ex.weaken ?_ (plus_le (z := q) (fun i h1 h2 _ => ⟨h1, by omega, Nat.le_refl _⟩))
          exact Ex.loopStop (ex_seqBody_stop (ex_optSep_key hF hx g1) g2.com)
    · refine .inl ⟨h1.opens hin, fun f => ?_⟩
      have hin' : ¬ Fl W.held none .node c p e q := fun g => hin (Fl.change (W := W.held) ⟨rfl, rfl, rfl⟩ g)
      exact (ex_flowSequenceEntry_fails hj hF.plane.held hx h1.held hin' h2 (fun i g1 g2 => hk i g1 (by omega))).weaken
        (plus_le (z := q) (fun i h1 h2 _ => ⟨h1, by omega, Nat.le_refl _⟩))
  | @items b c p q s a r e es h1 h2 h3 h4 h5 h6 h7 _ ih =>
    intro _ hnot k hk
    have hr := h7.le
    have hq := h1.le
    have hpos := h1.pos
    have hs := h3.le
    have ha := h6.le
    by_cases hin : Fl W none .node c p e q
    · rcases h3.or with h3' | ⟨i, g1, g2, g3⟩
      · have nx : Next W none q s := ⟨h3', by simp [h4], by simp [isOpen, h4]⟩
        have ent : ∀ f, Ex W p k (parseFlowSequenceEntry f json ind ctx) q (plus k p q b) (e, ind) := fun f =>
          ex_flowSequenceEntry hj hF hx.fits hin h2 (.inl ⟨s, nx⟩) (nx.noKey (by simp [h4])) (fun i a b => hk i a (by omega))
        have sep1 : ∀ {f k}, Ex W q k (optSeparate f ind ctx : M σ Ind) s k ind := ex_optSep hF (by omega) hx.fits h3' h1.sol
        have hw : ∀ i', plus (plus k p q b) a r b i' ≤ plus k p r b i' := by
          intro i'
          unfold plus
          repeat' split
          all_goals omega
        have kb : ∀ i, a ≤ i → i < r → plus k p q b i + b ≤ 64 := fun i g1 g2 => by
          rw [plus_out (by omega)]
          exact hk i (by omega) g2
        rcases h6.or with h6' | ⟨i, g1, g2, g3⟩
        · have sep2 : ∀ {f k}, Ex W (s + 1) k (optSeparate f ind ctx : M σ Ind) a k ind :=
            ex_optSep hF (by omega) hx.fits h6' (solW_not (by omega) (by simp [h4]) (by simp [h4]))
          have hrest : ¬ Fl W none .items b a (.sequence es) r := fun g => hnot (.items hin h2 h3' h4 h5 h6' g)
          rcases ih rfl hrest (plus k p q b) kb with ⟨ho, hA⟩ | ⟨e', r1, r', hv, hne, hent, hloop⟩
          · refine .inr ⟨e, q, a, h1.valid, ?_, ent, fun acc => ⟨acc ++ [e], fun f f' => ?_⟩⟩
            · rcases isOpen_iff.1 ho with h | h <;> simp [h]
            · refine Ex.weaken ?_ hw
              have body := ex_seqBody_comma (es := acc ++ [e]) hF (sep1 (f := f)) h4 h5 sep2 (Ex.attemptF (hA f) rfl)
              exact Ex.loopStop body
          · refine .inr ⟨e, q, r', h1.valid, hne, ent, fun acc => ?_⟩
            obtain ⟨acc', hl⟩ := hloop (acc ++ [e])
            refine ⟨acc', fun f f' => ?_⟩
            have body := ex_seqBody_comma (es := acc ++ [e]) hF (sep1 (f := f)) h4 h5 sep2 ((hent f).attemptT hv)
            rw [hv, if_pos rfl] at body
            exact Ex.weaken (Ex.loopGo body (hl f)) hw
        · refine .inr ⟨e, q, s + 1 + i, h1.valid, ?_, ent, fun acc => ⟨acc ++ [e], fun f f' => ?_⟩⟩
          · rcases g2 with h | h | h | h | h <;> simp [h]
          · have body := ex_seqBody_comma (es := acc ++ [e]) (k := plus k p q b) hF (sep1 (f := f)) h4 h5 (ex_optSep_key hF hx g1)
              ((ex_flowSequenceEntry_no (f := f) hx.flowy hj hF.toGround g2.blank (by
                rw [plus_out (by omega)]
                have := hk (s + 1 + i) (by omega) (by omega)
                omega)).attemptN (.inr g2.closed) rfl)
            refine (Ex.loopStop body).weaken ?_
            intro i'
            unfold plus
            repeat' split
            all_goals omega
      · have hsh := g1.closed g2.closed
        refine .inr ⟨e, q, q + i, h1.valid, ?_, fun f => ?_, fun acc => ⟨acc ++ [e], fun f f' => ?_⟩⟩
        · rcases g2 with h | h | h | h | h <;> simp [h]
        · exact ex_flowSequenceEntry hj hF hx.fits hin h2 (.inr ⟨hx, hsh⟩) ⟨i, g1, g2.closed, g2.noColon⟩ (fun i a b => hk i a (by omega))
        · refine Ex.weaken ?_ (plus_le (z := q) (fun i h1 h2 _ => ⟨h1, by omega, Nat.le_refl _⟩))
          exact Ex.loopStop (ex_seqBody_stop (ex_optSep_key hF hx g1) g2.com)
    · refine .inl ⟨h1.opens hin, fun f => ?_⟩
      have hin' : ¬ Fl W.held none .node c p e q := fun g => hin (Fl.change (W := W.held) ⟨rfl, rfl, rfl⟩ g)
      exact (ex_flowSequenceEntry_fails hj hF.plane.held hx h1.held hin' h2 (fun i g1 g2 => hk i g1 (by omega))).weaken
        (plus_le (z := q) (fun i h1 h2 _ => ⟨h1, by omega, Nat.le_refl _⟩))

/-! ### Entries of mappings -/

/-- The value after the colon. -/
theorem ex_separateValue {o : Option Nat} {c : Nat} (hx : Fits o ctx ind) (hj : JsonDoes json) (hF : Flat W) (h1 : (W p).type = .mappingValue)
    (hp : 1 ≤ p) (h2 : Calm W p) (h3 : Room W o (p + 1) a) (hlt : p + 1 < a) (h : Fl W o .node c a e q) (hn : Halts W o ctx q)
    (hk : k a < 64) (hb : ∀ i, a < i → i < q → k i + c ≤ 64) :
    Ex W p k (parseFlowMappingSeparateValue f json ind ctx) q (plus (plus k a (a + 1) 1) (a + 1) q c) (e, ind) := by
  have hv := h.valid
  unfold parseFlowMappingSeparateValue
  refine Ex.bind Ex.hasErrors ?_
  simp only [Bool.false_eq_true, if_false]
  refine Ex.bind Ex.tok ?_
  rw [if_neg (by simp [h1])]
  refine Ex.bind (Ex.next hF h2 (.of h1)) ?_
  refine Ex.bind Ex.tok ?_
  rw [if_neg (by simp [isPlainSafeToken_string (h3.mute hlt)])]
  refine Ex.bind (Ex.attemptT (q := q) (l := plus (plus k a (a + 1) 1) (a + 1) q c) (a := (e, ind)) ?_ hv) ?_
  · refine Ex.bind (ex_sep_room hF (by omega) hx h3 (solW_not hp (by simp [h1]) (by simp [h1])) hlt) ?_
    simp only [if_true]
    exact ex_flowNode hj hF hx h hn hk hb
  · rw [if_pos (show okNode (e, ind) = true from hv)]
    exact Ex.pure

theorem ex_adjacentValue {o : Option Nat} {c : Nat} (hx : Fits o ctx ind) (hj : JsonDoes json) (hF : Flat W) (h1 : (W p).type = .mappingValue)
    (hp : 1 ≤ p) (h2 : Calm W p) (h3 : Room W o (p + 1) a) (h : Fl W o .node c a e q) (hn : Halts W o ctx q)
    (hk : k a < 64) (hb : ∀ i, a < i → i < q → k i + c ≤ 64) :
    Ex W p k (parseFlowMappingAdjacentValue f json ind ctx) q (plus (plus k a (a + 1) 1) (a + 1) q c) (e, ind) := by
  have hv := h.valid
  unfold parseFlowMappingAdjacentValue
  refine Ex.bind Ex.hasErrors ?_
  simp only [Bool.false_eq_true, if_false]
  refine Ex.bind Ex.tok ?_
  rw [if_neg (by simp [h1])]
  refine Ex.bind (Ex.next hF h2 (.of h1)) ?_
  refine Ex.bind (Ex.attemptT (q := q) (l := plus (plus k a (a + 1) 1) (a + 1) q c) (a := (e, ind)) ?_ hv) ?_
  · refine Ex.bind (ex_optSep hF (by omega) hx h3 (solW_not hp (by simp [h1]) (by simp [h1]))) ?_
    exact ex_flowNode hj hF hx h hn hk hb
  · rw [if_pos (show okNode (e, ind) = true from hv)]
    exact Ex.pure

/-- Nothing can be read as a value after the colon. -/
theorem ex_separateValue_null (hF : Flat W) (h1 : (W p).type = .mappingValue) (h2 : Calm W p) (hs : isPlainSafeToken (W (p + 1)) ctx = false)
    (hv : Ex W (p + 1) k (attempt okNode (do
      let s ← parseSeparate f ind ctx
      if s.1 then parseFlowNode f json s.2 ctx else pure (.invalid, s.2))) (p + 1) l (.invalid, ind)) :
    Ex W p k (parseFlowMappingSeparateValue f json ind ctx) (p + 1) l (.null, ind) := by
  unfold parseFlowMappingSeparateValue
  refine Ex.bind Ex.hasErrors ?_
  simp only [Bool.false_eq_true, if_false]
  refine Ex.bind Ex.tok ?_
  rw [if_neg (by simp [h1])]
  refine Ex.bind (Ex.next hF h2 (.of h1)) ?_
  refine Ex.bind Ex.tok ?_
  rw [if_neg (by simp [hs])]
  refine Ex.bind hv ?_
  exact Ex.pure

theorem ex_adjacentValue_null (hF : Flat W) (h1 : (W p).type = .mappingValue) (h2 : Calm W p)
    (hv : Ex W (p + 1) k (attempt okNode (do
      let i ← optSeparate f ind ctx
      parseFlowNode f json i ctx)) (p + 1) l (.invalid, ind)) :
    Ex W p k (parseFlowMappingAdjacentValue f json ind ctx) (p + 1) l (.null, ind) := by
  unfold parseFlowMappingAdjacentValue
  refine Ex.bind Ex.hasErrors ?_
  simp only [Bool.false_eq_true, if_false]
  refine Ex.bind Ex.tok ?_
  rw [if_neg (by simp [h1])]
  refine Ex.bind (Ex.next hF h2 (.of h1)) ?_
  refine Ex.bind hv ?_
  exact Ex.pure

/-- A value in another line, where everything has to be on one line. -/
theorem ex_value_lines (hx : Keyed ctx) (hj : JsonDoes json) (hF : Flat W) (h1 : (W p).type = .mappingValue) (hp : 1 ≤ p)
    (h2 : Calm W p) (hw : Sp W (p + 1) i) (hm : Mute (W (p + 1 + i))) (hk : k (p + 1 + i) < 64) :
    Ex W p k (parseFlowMappingSeparateValue f json ind ctx) (p + 1) (plus k (p + 1 + i) (p + 1 + i + 1) 1) (.null, ind) ∧
    Ex W p k (parseFlowMappingAdjacentValue f json ind ctx) (p + 1) (plus k (p + 1 + i) (p + 1 + i + 1) 1) (.null, ind) := by
  have hc := hw.closed hm.closed
  have node : Ex W (p + 1 + i) k (parseFlowNode f json ind ctx) (p + 1 + i) (plus k (p + 1 + i) (p + 1 + i + 1) 1) (.invalid, ind) :=
    ex_flowNode_no hx.flowy hj hF.toGround hm.blank hk
  have sol : solW W (p + 1) = false := solW_not hp (by simp [h1]) (by simp [h1])
  have hstr : (W (p + 1)).type ≠ .string := by
    cases i with
    | zero => exact hm.blank.str
    | succ i => simp [hw.head]
  constructor
  · refine ex_separateValue_null hF h1 h2 (isPlainSafeToken_string hstr) ?_
    cases i with
    | zero =>
      refine Ex.attemptN (q := p + 1) ?_ (.inr hc) rfl
      have hsep : Ex W (p + 1) k (parseSeparate f ind ctx : M σ (Bool × Ind)) (p + 1) k (false, ind) := by
        rcases hx with rfl | rfl <;> exact Ex.bind (ex_sepInLine_no hw sol) Ex.pure
      refine Ex.bind hsep ?_
      simp only [Bool.false_eq_true, if_false]
      exact Ex.pure.weaken le_plus
    | succ i =>
      refine Ex.attemptN (q := p + 1 + (i + 1)) ?_ (.inr hc) rfl
      have hsep : Ex W (p + 1) k (parseSeparate f ind ctx : M σ (Bool × Ind)) (p + 1 + (i + 1)) k (true, ind) := by
        rcases hx with rfl | rfl <;> exact Ex.bind (ex_sepInLine_yes hF hw (.inl (by omega))) Ex.pure
      refine Ex.bind hsep ?_
      simp only [if_true]
      exact node
  · refine ex_adjacentValue_null hF h1 h2 ?_
    refine Ex.attemptN (q := p + 1 + i) ?_ (.inr hc) rfl
    exact Ex.bind (ex_optSep_key hF hx hw) node

/-- A value on several lines, where everything has to be on one line. -/
theorem ex_value_fails {c : Nat} (hx : Keyed ctx) (hj : JsonDoes json) (hF : Flat W) (h1 : (W p).type = .mappingValue) (hp : 1 ≤ p)
    (h2 : Calm W p) (h3 : Room W none (p + 1) a) (h : Fl W (some n) .node c a e q) (hn : ¬ Fl W none .node c a e q)
    (hk : k a < 64) (hb : ∀ i, a < i → i < q → k i + c ≤ 64) :
    (p + 1 < a → Ex W p k (parseFlowMappingSeparateValue f json ind ctx) (p + 1) (plus (plus k a (a + 1) 1) (a + 1) q c) (.null, ind)) ∧
    Ex W p k (parseFlowMappingAdjacentValue f json ind ctx) (p + 1) (plus (plus k a (a + 1) 1) (a + 1) q c) (.null, ind) := by
  have sol : solW W (p + 1) = false := solW_not hp (by simp [h1]) (by simp [h1])
  have sep (hlt : p + 1 < a) := ex_sep_room (σ := σ) (f := f) (k := k) (ind := ind) hF (by omega) hx.fits h3 sol hlt
  have node := ex_flowNode_fails (f := f) (ind := ind) hj hF.plane hx h hn hk hb
  have hc (hlt : p + 1 < a) : isOpen (W (p + 1)) = false := by
    cases h3 with
    | @here _ _ j h3 =>
      cases j with
      | zero => omega
      | succ j => exact (Free.of h3.head).1
  constructor
  · intro hlt
    refine ex_separateValue_null hF h1 h2 (isPlainSafeToken_string (h3.mute hlt)) ?_
    refine Ex.attemptN (q := a) ?_ (.inr (hc hlt)) rfl
    refine Ex.bind (sep hlt) ?_
    simp only [if_true]
    exact node
  · refine ex_adjacentValue_null hF h1 h2 ?_
    rcases Nat.eq_or_lt_of_le h3.le with he | hlt
    · subst he
      refine Ex.attemptF (q := p + 1) ?_ rfl
      have hin' : ¬ Fl W.held none .node c (p + 1) e q := fun g => hn (Fl.change (W := W.held) ⟨rfl, rfl, rfl⟩ g)
      have sep : Ex W.held (p + 1) k (optSeparate f ind ctx : M σ Ind) (p + 1) k ind := by
        have h0 : Ex W.held (p + 1) k (parseSeparate f ind ctx : M σ (Bool × Ind)) (p + 1) k (false, ind) := by
          rcases hx with rfl | rfl <;> exact Ex.bind (ex_sepInLine_no (W := W.held) h.begins.sp sol) Ex.pure
        unfold optSeparate
        exact Ex.bind (Ex.attemptF (W := W.held) h0 rfl) Ex.pure
      exact Ex.bind sep (ex_flowNode_fails (f := f) (ind := ind) hj hF.plane.held hx h.held hin' hk hb)
    · refine Ex.attemptN (q := a) ?_ (.inr (hc hlt)) rfl
      exact Ex.bind (ex_optSep hF (by omega) hx.fits h3 sol) node

/-- An entry of a mapping whose key is read. -/
theorem ex_flowMappingImplicit_of {o : Option Nat} {l' : Nat → Nat} {w v' : Node} (hx : Fits o ctx ind) (hj : JsonDoes json) (hF : Flat W)
    (h : Atom W p x i) (hn : Halts W o ctx i) (hk : k p < 64) (hv' : v' = if validNode w then w else .null)
    (hs : (W p).type = .string ∨ (W p).type = .alias → Ex W i k (attempt okNode (do
      let i ← optSeparate f ind ctx
      parseFlowMappingSeparateValue f json i ctx)) q l' (w, ind))
    (ha : (W p).type ≠ .string → (W p).type ≠ .alias → Ex W i (plus k p (p + 1) 1) (attempt okNode (do
      let i ← optSeparate f ind ctx
      parseFlowMappingAdjacentValue f json i ctx)) q l' (w, ind)) :
    Ex W p k (parseFlowMappingImplicitEntry f json ind ctx) q l' (.mappingEntry x v', ind) := by
  have hvx := h.valid
  have ty := h.type
  have ho := h.closed
  have fin : ∀ {x : Node}, Ex W q l' (if okNode (w, ind) then pure (.mappingEntry x w, ind) else pure (.mappingEntry x .null, ind) : M σ (Node × Ind))
      q l' (.mappingEntry x v', ind) := by
    intro x
    subst hv'
    cases hv : validNode w with
    | true => rw [if_pos (show okNode (w, ind) = true from hv)]; exact Ex.pure
    | false => rw [if_neg (by simp [okNode, hv])]; exact Ex.pure
  unfold parseFlowMappingImplicitEntry
  refine Ex.bind Ex.hasErrors ?_
  simp only [Bool.false_eq_true, if_false]
  by_cases hstr : (W p).type = .string ∨ (W p).type = .alias
  · refine Ex.bind (Ex.attemptT (q := q) (l := l') (a := (.mappingEntry x v', ind)) ?_ rfl) Ex.pure
    unfold parseFlowMappingYAMLKeyEntry
    refine Ex.bind Ex.hasErrors ?_
    simp only [Bool.false_eq_true, if_false]
    refine Ex.bind (ex_yamlNode hF hx h hstr hn) ?_
    rw [if_neg (by simp [okNode, hvx])]
    exact Ex.bind (hs hstr) fin
  · obtain ⟨s1, s2⟩ := not_or.1 hstr
    have hi : isPlainIndicator (W p) = false := by rcases ty with h | h | h | h <;> simp [isPlainIndicator, h]
    have t3 : (W p).type ≠ .tag := by rcases ty with h | h | h | h <;> simp [h]
    have t4 : (W p).type ≠ .anchor := by rcases ty with h | h | h | h <;> simp [h]
    have yaml : Ex W p k (parseFlowMappingYAMLKeyEntry f json ind ctx) p (plus k p (p + 1) 1) (.invalid, ind) := by
      unfold parseFlowMappingYAMLKeyEntry
      refine Ex.bind Ex.hasErrors ?_
      simp only [Bool.false_eq_true, if_false]
      exact Ex.bind (ex_yamlNode_no hF.toGround hx.flowy hk (.inr ho) s1 s2 t3 t4 hi) Ex.pure
    refine Ex.bind (yaml.attemptN (.inr ho) rfl) ?_
    rw [if_neg (by simp [okNode, validNode, Node.invalid])]
    refine Ex.bind (Ex.attemptT (q := q) (l := l') (a := (.mappingEntry x v', ind)) ?_ rfl) Ex.pure
    unfold parseFlowMappingJSONKeyEntry
    refine Ex.bind Ex.hasErrors ?_
    simp only [Bool.false_eq_true, if_false]
    have key : Ex W p (plus k p (p + 1) 1) (parseFlowJSONNode f json ind ctx) i (plus k p (p + 1) 1) (x, ind) := by
      cases h with
      | ref h => exact absurd h.sign s2
      | scal h =>
        cases h with
        | word h => exact absurd h.str s1
        | quoted h => exact ex_flowJSONNode t3 t4 (hj.quoted hF h hx.flowy)
    refine Ex.bind key ?_
    rw [if_neg (by simp [okNode, hvx])]
    exact Ex.bind (ha s1 s2) fin

/-- What may come after an entry. -/
def Comes (t : Tok) : Prop := t.type = .mappingEnd ∨ t.type = .collectEntry

theorem Comes.blank {t : Tok} (h : Comes t) : Blank t := by
  rcases h with h | h
  · exact .of (.inr (.inl h))
  · exact .comma h

theorem Comes.next {o : Option Nat} {z : Nat} (h : Comes (W z)) (hr : Room W o q z) : Next W o q z :=
  ⟨hr, h.blank.str, h.blank.shut⟩

/-- No value after the colon. -/
theorem ex_value_blank {o : Option Nat} {z : Nat} (hx : Fits o ctx ind) (hj : JsonDoes json) (hF : Flat W) (h1 : (W p).type = .mappingValue)
    (hp : 1 ≤ p) (h2 : Calm W p) (hr : Room W o (p + 1) z) (hm : Comes (W z)) (hk : k z < 64) :
    Ex W p k (parseFlowMappingSeparateValue f json ind ctx) (p + 1) (plus k z (z + 1) 1) (.null, ind) ∧
    Ex W p k (parseFlowMappingAdjacentValue f json ind ctx) (p + 1) (plus k z (z + 1) 1) (.null, ind) := by
  have hc := (hm.next hr).closed
  have node : Ex W z k (parseFlowNode f json ind ctx) z (plus k z (z + 1) 1) (.invalid, ind) :=
    ex_flowNode_no hx.flowy hj hF.toGround hm.blank hk
  have sol : solW W (p + 1) = false := solW_not hp (by simp [h1]) (by simp [h1])
  constructor
  · rcases Nat.eq_or_lt_of_le hr.le with he | hlt
    · subst he
      refine ex_separateValue_null hF h1 h2 (isPlainSafeToken_string hm.blank.str) ?_
      refine Ex.attemptN (q := p + 1) ?_ (.inr hc) rfl
      have hsep : Ex W (p + 1) k (parseSeparate f ind ctx : M σ (Bool × Ind)) (p + 1) k (false, ind) :=
        ex_sep_no hF.toGround hx.flowy hr.begins.sp sol hr.begins
      refine Ex.bind hsep ?_
      simp only [Bool.false_eq_true, if_false]
      exact Ex.pure.weaken le_plus
    · refine ex_separateValue_null hF h1 h2 (isPlainSafeToken_string (hr.mute hlt)) ?_
      refine Ex.attemptN (q := z) ?_ (.inr hc) rfl
      refine Ex.bind (ex_sep_room hF (by omega) hx hr sol hlt) ?_
      simp only [if_true]
      exact node
  · refine ex_adjacentValue_null hF h1 h2 ?_
    refine Ex.attemptN (q := z) ?_ (.inr hc) rfl
    exact Ex.bind (ex_optSep hF (by omega) hx hr sol) node

/-- A key with its value. -/
theorem ex_valueEntry {o : Option Nat} {c s : Nat} (hx : Fits o ctx ind) (hj : JsonDoes json) (hF : Flat W) (h : Atom W p x i)
    (h1 : Room W o i s) (h2 : (W s).type = .mappingValue) (h3 : Calm W s) (h4 : Room W o (s + 1) a)
    (h5 : (W p).type = .string ∨ (W p).type = .alias → s + 1 < a) (h6 : Fl W o .node c a e q) (hc : c ≤ b) (h0 : 1 ≤ b)
    (hn : Halts W o ctx q) (hb : ∀ i, p ≤ i → i < q → k i + b ≤ 64) :
    Ex W p k (parseFlowMappingImplicitEntry f json ind ctx) q (plus k p q b) (.mappingEntry x e, ind) := by
  have hv := h6.valid
  have hlt := h.lt
  have hle := h6.le
  have hpos := h.pos
  have hs := h1.le
  have ha := h4.le
  have nx : Next W o i s := ⟨h1, by simp [h2], by simp [isOpen, h2]⟩
  have kp := hb p (Nat.le_refl _) (by omega)
  have ka := hb a (by omega) hle
  refine ex_flowMappingImplicit_of hx hj hF h (.inl ⟨s, nx⟩) (by omega) (w := e) (by rw [if_pos hv]) (fun g => ?_) (fun g1 g2 => ?_)
  · refine Ex.attemptT ?_ hv
    refine Ex.bind (ex_optSep hF (by omega) hx h1 h.sol) ?_
    refine (ex_separateValue hx hj hF h2 (by omega) h3 h4 (h5 g) h6 hn (by omega) ?_).weaken ?_
    · intro i g1 g2
      have := hb i (by omega) g2
      omega
    · intro i
      unfold plus
      repeat' split
      all_goals omega
  · refine Ex.attemptT ?_ hv
    refine Ex.bind (ex_optSep hF (by omega) hx h1 h.sol) ?_
    refine (ex_adjacentValue hx hj hF h2 (by omega) h3 h4 h6 hn ?_ ?_).weaken ?_
    · rw [plus_out (by omega)]
      omega
    · intro i g1 g2
      rw [plus_out (by omega)]
      have := hb i (by omega) g2
      omega
    · intro i
      unfold plus
      repeat' split
      all_goals omega

/-- An entry without `?`. -/
theorem ex_flowMappingEntry_plain {v : Node} (h : (W p).type ≠ .mappingKey) (hv : validNode v = true)
    (hi : Ex W p k (parseFlowMappingImplicitEntry f json ind ctx) q l (v, ind)) :
    Ex W p k (parseFlowMappingEntry f json ind ctx) q l (v, ind) := by
  unfold parseFlowMappingEntry
  refine Ex.bind Ex.hasErrors ?_
  simp only [Bool.false_eq_true, if_false]
  refine Ex.bind Ex.tok ?_
  rw [if_neg h]
  refine Ex.bind Ex.pure ?_
  rw [if_neg (by simp [okNode, validNode, Node.invalid])]
  refine Ex.bind hi ?_
  rw [if_pos (show okNode (v, ind) = true from hv)]
  exact Ex.pure

/-- An entry with `?` in the line of the key. -/
theorem ex_flowMappingEntry_asked {v : Node} (hx : Flowy ctx) (hF : Flat W) (hp : 1 ≤ p) (h : (W p).type = .mappingKey) (hc : Calm W p)
    (hs : Sp W (p + 1) (j + 1)) (hb : Begins (W (p + 1 + (j + 1)))) (hv : validNode v = true)
    (hi : Ex W (p + 1 + (j + 1)) k (parseFlowMappingImplicitEntry f json ind ctx) q l (v, ind)) :
    Ex W p k (parseFlowMappingEntry f json ind ctx) q l (v, ind) := by
  unfold parseFlowMappingEntry
  refine Ex.bind Ex.hasErrors ?_
  simp only [Bool.false_eq_true, if_false]
  refine Ex.bind Ex.tok ?_
  rw [if_pos h]
  refine Ex.bind (Ex.attemptT (q := q) (l := l) (a := (v, ind)) ?_ hv) ?_
  · refine Ex.bind (Ex.next hF hc (.of h)) ?_
    refine Ex.bind (ex_sep_yes hF hx hs (solW_not hp (by simp [h]) (by simp [h])) hb) ?_
    simp only [if_true]
    unfold parseFlowMappingExplicitEntry
    refine Ex.bind Ex.hasErrors ?_
    simp only [Bool.false_eq_true, if_false]
    refine Ex.bind (hi.attemptT hv) ?_
    rw [if_pos (show okNode (v, ind) = true from hv)]
    exact Ex.pure
  · rw [if_pos (show okNode (v, ind) = true from hv)]
    exact Ex.pure

/-- An entry of a mapping, before a comma or the closing bracket. -/
theorem Fl.entry_run {o : Option Nat} {z : Nat} (hx : Fits o ctx ind) (hj : JsonDoes json) (hF : Flat W) (h : Fl W o .entry b p e q)
    (hr : Room W o q z) (hm : Comes (W z)) (hb : ∀ i, p ≤ i → i ≤ z → k i + b ≤ 64) :
    Ex W p k (parseFlowMappingImplicitEntry f json ind ctx) q (plus k p (z + 1) b) (e, ind) := by
  have hz := hr.le
  have nx := hm.next hr
  cases h with
  | @value _ c _ i s a _ x e h1 h2 h3 h4 h5 h6 h7 h8 h9 =>
    exact (ex_valueEntry hx hj hF h1 h2 h3 h4 h5 h6 h7 h8 h9 (.inl ⟨z, nx⟩) (fun i a b => hb i a (by omega))).weaken
      (plus_le (z := q) (fun i h1 h2 _ => ⟨h1, by omega, Nat.le_refl _⟩))
  | @alone _ _ _ x h1 h2 =>
    have hlt := h1.lt
    have hpos := h1.pos
    have kp := hb p (Nat.le_refl _) (by omega)
    have sep : ∀ {f k}, Ex W q k (optSeparate f ind ctx : M σ Ind) z k ind := ex_optSep hF (by omega) hx hr h1.sol
    refine ex_flowMappingImplicit_of hx hj hF h1 (.inl ⟨z, nx⟩) (by omega) (w := .invalid) rfl (fun g => ?_) (fun g1' g2' => ?_)
    · exact Ex.attemptN (Ex.bind sep ((ex_separateValue_no hm.blank.col).weaken le_plus)) (.inr nx.closed) rfl
    · refine Ex.attemptN (Ex.bind sep ((ex_adjacentValue_no hm.blank.col).weaken ?_)) (.inr nx.closed) rfl
      intro i
      unfold plus
      repeat' split
      all_goals omega
  | @void _ _ i s x h1 h2 h3 h4 h5 =>
    have hlt := h1.lt
    have hpos := h1.pos
    have hs := h2.le
    have kp := hb p (Nat.le_refl _) (by omega)
    have kz := hb z (by omega) (Nat.le_refl _)
    have n1 : Next W o i s := ⟨h2, by simp [h3], by simp [isOpen, h3]⟩
    have sep : ∀ {f k}, Ex W i k (optSeparate f ind ctx : M σ Ind) s k ind := ex_optSep hF (by omega) hx h2 h1.sol
    refine ex_flowMappingImplicit_of hx hj hF h1 (.inl ⟨s, n1⟩) (by omega) (w := .null) rfl (fun g => ?_) (fun g1' g2' => ?_)
    · refine Ex.attemptT (Ex.bind sep ((ex_value_blank hx hj hF h3 (by omega) h4 hr hm (by omega)).1.weaken ?_)) rfl
      intro i
      unfold plus
      repeat' split
      all_goals omega
    · refine Ex.attemptT (Ex.bind sep ((ex_value_blank hx hj hF h3 (by omega) h4 hr hm ?_).2.weaken ?_)) rfl
      · rw [plus_out (by omega)]
        omega
      · intro i
        unfold plus
        repeat' split
        all_goals omega

theorem Fl.asked_run {o : Option Nat} {z : Nat} (hx : Fits o ctx ind) (hj : JsonDoes json) (hF : Flat W) (h : Fl W o .asked b p e q)
    (hr : Room W o q z) (hm : Comes (W z)) (hb : ∀ i, p ≤ i → i ≤ z → k i + b ≤ 64) :
    Ex W p k (parseFlowMappingEntry f json ind ctx) q (plus k p (z + 1) b) (e, ind) := by
  cases h with
  | plain h =>
    obtain ⟨-, -, hv, -, ht⟩ := h.entry_facts
    exact ex_flowMappingEntry_plain (by rcases ht with h | h | h | h <;> simp [h]) hv (h.entry_run hx hj hF hr hm hb)
  | @asked _ _ j _ _ h1 h2 h3 h4 h =>
    obtain ⟨-, -, hv, -, ht⟩ := h.entry_facts
    refine ex_flowMappingEntry_asked hx.flowy hF h1 h2 h3 h4 (by rcases ht with h | h | h | h <;> simp [Begins, h]) hv ?_
    exact (h.entry_run hx hj hF hr hm (fun i a b => hb i (by omega) b)).weaken
      (plus_le (fun i h1 h2 _ => ⟨by omega, by omega, Nat.le_refl _⟩))

/-- No entry. -/
theorem ex_flowMappingEntry_no (hx : Flowy ctx) (hj : JsonDoes json) (hG : Ground W) (h : Blank (W p)) (hk : k p < 64) :
    Ex W p k (parseFlowMappingEntry f json ind ctx) p (plus k p (p + 1) 1) (.invalid, ind) := by
  unfold parseFlowMappingEntry
  refine Ex.bind Ex.hasErrors ?_
  simp only [Bool.false_eq_true, if_false]
  refine Ex.bind Ex.tok ?_
  rw [if_neg h.ask]
  refine Ex.bind Ex.pure ?_
  rw [if_neg (by simp [okNode, validNode, Node.invalid])]
  refine Ex.bind (p' := p) (j := plus k p (p + 1) 1) (a := (.invalid, ind)) ?_ Ex.pure
  unfold parseFlowMappingImplicitEntry
  refine Ex.bind Ex.hasErrors ?_
  simp only [Bool.false_eq_true, if_false]
  have yaml : Ex W p k (parseFlowMappingYAMLKeyEntry f json ind ctx) p (plus k p (p + 1) 1) (.invalid, ind) := by
    unfold parseFlowMappingYAMLKeyEntry
    refine Ex.bind Ex.hasErrors ?_
    simp only [Bool.false_eq_true, if_false]
    exact Ex.bind (ex_yamlNode_no hG hx (by omega) (.inr h.shut) h.str h.ali h.tag h.anc h.ind) Ex.pure
  refine Ex.bind (yaml.attemptN (.inr h.shut) rfl) ?_
  rw [if_neg (by simp [okNode, validNode, Node.invalid])]
  have js : Ex W p (plus k p (p + 1) 1) (parseFlowMappingJSONKeyEntry f json ind ctx) p (plus k p (p + 1) 1) (.invalid, ind) := by
    unfold parseFlowMappingJSONKeyEntry
    refine Ex.bind Ex.hasErrors ?_
    simp only [Bool.false_eq_true, if_false]
    exact Ex.bind (ex_flowJSONNode h.tag h.anc (hj.no _ _ _ _ _ h.sq h.dq h.shut)) Ex.pure
  refine Ex.bind (js.attemptN (.inr h.shut) rfl) ?_
  rw [if_neg (by simp [okNode, validNode, Node.invalid])]
  exact ex_emptyKeyEntry_no h.col

theorem ex_mappingEntries_no (hx : Flowy ctx) (hj : JsonDoes json) (hG : Ground W) (h : Blank (W p)) (hk : k p < 64) :
    Ex W p k (parseFlowMappingEntries f json ind ctx) p (plus k p (p + 1) 1) (.invalid, ind) := by
  unfold parseFlowMappingEntries
  refine Ex.bind Ex.hasErrors ?_
  simp only [Bool.false_eq_true, if_false]
  exact Ex.bind (ex_flowMappingEntry_no hx hj hG h hk) Ex.pure

/-- One more entry. -/
def mapBody (f : Nat) (json : Content σ) (ctx : PCtx) (x : List Node × Ind) : M σ (Bool × List Node × Ind) := do
  let i ← optSeparate f x.2 ctx
  let t ← tok
  if t.type ≠ .collectEntry then pure (false, x.1, i) else do
  next
  let i ← optSeparate f i ctx
  let n ← attempt okNode (parseFlowMappingEntry f json i ctx)
  if okNode n then pure (true, x.1 ++ [n.1], n.2) else pure (true, x.1, n.2)

/-- No comma. -/
theorem ex_mapBody_stop {es : List Node} (hs : Ex W p k (optSeparate f ind ctx : M σ Ind) q k ind) (h : (W q).type ≠ .collectEntry) :
    Ex W p k (mapBody f json ctx (es, ind)) q k (false, es, ind) := by
  refine Ex.bind hs ?_
  refine Ex.bind Ex.tok ?_
  rw [if_pos h]
  exact Ex.pure

/-- The comma, and what comes after it. -/
theorem ex_mapBody_comma {es : List Node} {y : Node} {s : Nat} (hF : Flat W) (hs : Ex W p k (optSeparate f ind ctx : M σ Ind) s k ind)
    (h : (W s).type = .collectEntry) (hc : Calm W s) (hs2 : Ex W (s + 1) k (optSeparate f ind ctx : M σ Ind) a k ind)
    (hy : Ex W a k (attempt okNode (parseFlowMappingEntry f json ind ctx)) q l (y, ind)) :
    Ex W p k (mapBody f json ctx (es, ind)) q l (true, if validNode y then es ++ [y] else es, ind) := by
  refine Ex.bind hs ?_
  refine Ex.bind Ex.tok ?_
  rw [if_neg (by simp [h])]
  refine Ex.bind (Ex.next hF hc (.of h)) ?_
  refine Ex.bind hs2 ?_
  refine Ex.bind hy ?_
  cases hv : validNode y with
  | true => rw [if_pos (show okNode (y, ind) = true from hv)]; exact Ex.pure
  | false => rw [if_neg (by simp [okNode, hv])]; exact Ex.pure

/-- The entries of a mapping: the first of them, and what is read after it. -/
theorem Fl.pairs_run {o : Option Nat} {x : FK} (hx : Fits o ctx ind) (hj : JsonDoes json) (hF : Flat W) (h : Fl W o x b p v q) : x = .pairs →
    ∃ es, v = .mapping es ∧ ∀ k : Nat → Nat, (∀ i, p ≤ i → i ≤ q → k i + b ≤ 64) → ∃ e es' r l, es = e :: es' ∧ validNode e = true ∧
      (∀ f, Ex W p k (parseFlowMappingEntry f json ind ctx) r l (e, ind)) ∧
      ∀ f f' acc, Ex W r l (loop f' (mapBody f json ctx) (acc ++ [e], ind)) q (plus k p (q + 1) b) (acc ++ es, ind) := by
  induction h with
  | atom => nofun
  | seqNil => nofun
  | seq => nofun
  | mapNil => nofun
  | map => nofun
  | item => nofun
  | items => nofun
  | itemComma => nofun
  | value => nofun
  | alone => nofun
  | void => nofun
  | plain => nofun
  | asked => nofun
  | @pair b p q z e h1 h2 h3 _ =>
    intro _
    obtain ⟨hpos, -, hv, hs, -⟩ := h1.asked_facts
    have := h1.le
    have hz := h2.le
    refine ⟨_, rfl, fun k hk => ⟨e, [], q, plus k p (z + 1) b, rfl, hv, fun f => h1.asked_run hx hj hF h2 (.inl h3) hk, fun f f' acc => ?_⟩⟩
    exact Ex.loopStop (ex_mapBody_stop (ex_optSep hF (by omega) hx h2 hs) (by simp [h3]))
  | @pairComma b p q s z e h1 h2 h3 h4 h5 h6 _ =>
    intro _
    obtain ⟨hpos, hb1, hv, hs, -⟩ := h1.asked_facts
    have := h1.le
    have := h2.le
    have hz := h5.le
    refine ⟨_, rfl, fun k hk => ⟨e, [], q, plus k p (s + 1) b, rfl, hv, fun f => h1.asked_run hx hj hF h2 (.inr h3) (fun i a b => hk i a (by omega)),
      fun f f' acc => ?_⟩⟩
    have body := ex_mapBody_comma (es := acc ++ [e]) hF (ex_optSep (f := f) (k := plus k p (s + 1) b) hF (by omega) hx h2 hs) h3 h4
      (ex_optSep hF (by omega) hx h5 (solW_not (by omega) (by simp [h3]) (by simp [h3])))
      ((ex_flowMappingEntry_no (f := f) hx.flowy hj hF.toGround (.of (.inr (.inl h6))) (by
        rw [plus_out (by omega)]
        have := hk z (by omega) (by omega)
        omega)).attemptN (.inr (by simp [isOpen, h6])) rfl)
    have stop : ∀ f', Ex W z (plus (plus k p (s + 1) b) z (z + 1) 1)
        (loop f' (mapBody f json ctx) (acc ++ [e], ind)) z _ (acc ++ [e], ind) := fun f' =>
      Ex.loopStop (ex_mapBody_stop (ex_optSep_again hF (by omega) hx h5 (solW_not (by omega) (by simp [h3]) (by simp [h3])))
        (by simp [h6]))
    refine (Ex.loopGo body stop).weaken ?_
    intro i'
    unfold plus
    repeat' split
    all_goals omega
  | @pairs b p q z u r e es h1 h2 h3 h4 h5 h6 _ ih =>
    intro _
    obtain ⟨es2, he, ih⟩ := ih rfl
    cases he
    obtain ⟨hpos, hb1, hv, hs, -⟩ := h1.asked_facts
    have hr := h6.le
    have hq := h1.le
    have hz := h2.le
    have hu := h5.le
    refine ⟨_, rfl, fun k hk => ⟨e, es, q, plus k p (z + 1) b, rfl, hv, fun f => h1.asked_run hx hj hF h2 (.inr h3) (fun i a b => hk i a (by omega)),
      fun f f' acc => ?_⟩⟩
    obtain ⟨e', es', r', l', hes, hv', hent, hloop⟩ := ih (plus k p (z + 1) b) (fun i' h1 h2 => by
      rw [plus_out (by omega)]
      exact hk i' (by omega) h2)
    have hw : ∀ i', plus (plus k p (z + 1) b) u (r + 1) b i' ≤ plus k p (r + 1) b i' := by
      intro i'
      unfold plus
      repeat' split
      all_goals omega
    refine Ex.weaken ?_ hw
    have body := ex_mapBody_comma (es := acc ++ [e]) hF (ex_optSep (f := f) (k := plus k p (z + 1) b) hF (by omega) hx h2 hs) h3 h4
      (ex_optSep hF (by omega) hx h5 (solW_not (by omega) (by simp [h3]) (by simp [h3]))) ((hent f).attemptT hv')
    rw [if_pos hv'] at body
    refine Ex.loopGo body (fun f2 => ?_)
    have := hloop f f2 (acc ++ [e])
    rw [List.append_assoc acc [e] es] at this
    exact this

theorem ex_mappingEntries {o : Option Nat} {es : List Node} (hx : Fits o ctx ind) (hj : JsonDoes json) (hF : Flat W)
    (h : Fl W o .pairs b p (.mapping es) q) (hk : ∀ i, p ≤ i → i ≤ q → k i + b ≤ 64) :
    Ex W p k (parseFlowMappingEntries f json ind ctx) q (plus k p (q + 1) b) (.mapping es, ind) := by
  obtain ⟨es2, he, h⟩ := h.pairs_run hx hj hF rfl
  cases he
  obtain ⟨e, es', r, l, he, hv, hent, hloop⟩ := h k hk
  unfold parseFlowMappingEntries
  refine Ex.bind Ex.hasErrors ?_
  simp only [Bool.false_eq_true, if_false]
  refine Ex.bind (hent f) ?_
  rw [if_neg (by simp [okNode, hv])]
  exact Ex.bind (hloop f f []) Ex.pure

/-- A key with its value on several lines, where everything has to be on one line: it is read without its value, or it is on one line
itself. -/
theorem ex_value_entry_fails {c s z : Nat} (hx : Keyed ctx) (hj : JsonDoes json) (hF : Flat W) (h1 : Atom W p x i) (h2 : Room W (some n) i s)
    (h3 : (W s).type = .mappingValue) (h4 : Calm W s) (h5 : Room W (some n) (s + 1) a)
    (h6 : (W p).type = .string ∨ (W p).type = .alias → s + 1 < a) (h7 : Fl W (some n) .node c a e q) (h8 : c ≤ b) (h9 : 1 ≤ b)
    (h10 : Room W (some n) q z) (hk : ∀ i, p ≤ i → i < q → k i + b ≤ 64) :
    (Room W none i s ∧ Room W none (s + 1) a ∧ Fl W none .node c a e q ∧ Room W none q z) ∨
    ∃ y r r', (W r').type ≠ .mappingEnd ∧ (W r').type ≠ .collectEntry ∧
      (∀ f, Ex W p k (parseFlowMappingImplicitEntry f json ind ctx) r (plus k p q b) (.mappingEntry x y, ind)) ∧
      ∀ f k, Ex W r k (optSeparate f ind ctx : M σ Ind) r' k ind := by
  have hlt := h1.lt
  have hle := h7.le
  have hpos := h1.pos
  have hs := h2.le
  have ha := h5.le
  have kp := hk p (Nat.le_refl _) (by omega)
  have ka := hk a (by omega) hle
  rcases h2.or with h2' | ⟨j, g1, g2, g3⟩
  · have nx : Next W none i s := ⟨h2', by simp [h3], by simp [isOpen, h3]⟩
    have sep : ∀ {f k}, Ex W i k (optSeparate f ind ctx : M σ Ind) s k ind := ex_optSep hF (by omega) hx.fits h2' h1.sol
    rcases h5.or with h5' | ⟨j, g1, g2, g3⟩
    · by_cases hin : Fl W none .node c a e q
      · rcases h10.or with h10' | ⟨j, g1, g2, g3⟩
        · exact .inl ⟨h2', h5', hin, h10'⟩
        · have hsh := g1.closed g2.closed
          refine .inr ⟨e, q, q + j, ?_, g2.com, fun f => ?_, fun f k => ex_optSep_key hF hx g1⟩
          · rcases g2 with h | h | h | h | h <;> simp [h]
          · exact ex_valueEntry hx.fits hj hF h1 h2' h3 h4 h5' h6 hin h8 h9 (.inr ⟨hx, hsh⟩) hk
      · have ho := isOpen_iff.1 (h7.opens hin)
        refine .inr ⟨.null, s + 1, a, ?_, ?_, fun f => ?_, fun f k => ?_⟩
        · rcases ho with h | h <;> simp [h]
        · rcases ho with h | h <;> simp [h]
        · refine ex_flowMappingImplicit_of hx.fits hj hF h1 (.inl ⟨s, nx⟩) (by omega) (w := .null) rfl (fun g => ?_) (fun g1 g2 => ?_)
          · refine Ex.attemptT (Ex.bind sep (((ex_value_fails hx hj hF h3 (by omega) h4 h5' h7 hin (by omega) ?_).1 (h6 g)).weaken ?_)) rfl
            · intro i g1 g2
              have := hk i (by omega) g2
              omega
            · intro i
              unfold plus
              repeat' split
              all_goals omega
          · refine Ex.attemptT (Ex.bind sep ((ex_value_fails hx hj hF h3 (by omega) h4 h5' h7 hin ?_ ?_).2.weaken ?_)) rfl
            · rw [plus_out (by omega)]
              omega
            · intro i g1 g2
              rw [plus_out (by omega)]
              have := hk i (by omega) g2
              omega
            · intro i
              unfold plus
              repeat' split
              all_goals omega
        · exact ex_optSep hF (by omega) hx.fits h5' (solW_not (by omega) (by simp [h3]) (by simp [h3]))
    · have kj := hk (s + 1 + j) (by omega) (by omega)
      refine .inr ⟨.null, s + 1, s + 1 + j, ?_, g2.com, fun f => ?_, fun f k => ex_optSep_key hF hx g1⟩
      · rcases g2 with h | h | h | h | h <;> simp [h]
      · refine ex_flowMappingImplicit_of hx.fits hj hF h1 (.inl ⟨s, nx⟩) (by omega) (w := .null) rfl (fun g => ?_) (fun g1' g2' => ?_)
        · refine Ex.attemptT (Ex.bind sep ((ex_value_lines hx hj hF h3 (by omega) h4 g1 g2 (by omega)).1.weaken ?_)) rfl
          intro i
          unfold plus
          repeat' split
          all_goals omega
        · refine Ex.attemptT (Ex.bind sep ((ex_value_lines hx hj hF h3 (by omega) h4 g1 g2 ?_).2.weaken ?_)) rfl
          · rw [plus_out (by omega)]
            omega
          · intro i
            unfold plus
            repeat' split
            all_goals omega
  · have hsh := g1.closed g2.closed
    refine .inr ⟨.null, i, i + j, ?_, g2.com, fun f => ?_, fun f k => ex_optSep_key hF hx g1⟩
    · rcases g2 with h | h | h | h | h <;> simp [h]
    · refine ex_flowMappingImplicit_of hx.fits hj hF h1 (.inr ⟨hx, hsh⟩) (by omega) (w := .invalid) rfl (fun g => ?_) (fun g1' g2' => ?_)
      · exact Ex.attemptN (Ex.bind (ex_optSep_key hF hx g1) ((ex_separateValue_no g2.noColon).weaken le_plus)) (.inr hsh) rfl
      · refine Ex.attemptN (Ex.bind (ex_optSep_key hF hx g1) ((ex_adjacentValue_no g2.noColon).weaken ?_)) (.inr hsh) rfl
        intro i
        unfold plus
        repeat' split
        all_goals omega

/-- The first entry of a mapping on several lines, where everything has to be on one line: something else is read, or it is on one line
itself. -/
theorem Fl.entry_fails {z : Nat} (hx : Keyed ctx) (hj : JsonDoes json) (hF : Flat W) (h : Fl W (some n) .entry b p e q)
    (hr : Room W (some n) q z) (hm : Comes (W z)) (hk : ∀ i, p ≤ i → i ≤ z → k i + b ≤ 64) :
    (Fl W none .entry b p e q ∧ Room W none q z) ∨
    ∃ y r r', (W r').type ≠ .mappingEnd ∧ (W r').type ≠ .collectEntry ∧ validNode y = true ∧
      (∀ f, Ex W p k (parseFlowMappingImplicitEntry f json ind ctx) r (plus k p (z + 1) b) (y, ind)) ∧
      ∀ f k, Ex W r k (optSeparate f ind ctx : M σ Ind) r' k ind := by
  have hz := hr.le
  -- the line ends after the key
  have key : ∀ {x i j}, Atom W p x i → 1 ≤ b → Sp W i j → Mute (W (i + j)) → i + j ≤ z →
      ∃ y r r', (W r').type ≠ .mappingEnd ∧ (W r').type ≠ .collectEntry ∧ validNode y = true ∧
      (∀ f, Ex W p k (parseFlowMappingImplicitEntry f json ind ctx) r (plus k p (z + 1) b) (y, ind)) ∧
      ∀ f k, Ex W r k (optSeparate f ind ctx : M σ Ind) r' k ind := by
    intro x i j h1 hb g1 g2 g3
    have hlt := h1.lt
    have kp := hk p (Nat.le_refl _) (by omega)
    have hsh := g1.closed g2.closed
    refine ⟨.mappingEntry x .null, i, i + j, ?_, g2.com, rfl, fun f => ?_, fun f k => ex_optSep_key hF hx g1⟩
    · rcases g2 with h | h | h | h | h <;> simp [h]
    · refine ex_flowMappingImplicit_of hx.fits hj hF h1 (.inr ⟨hx, hsh⟩) (by omega) (w := .invalid) rfl (fun g => ?_) (fun g1' g2' => ?_)
      · exact Ex.attemptN (Ex.bind (ex_optSep_key hF hx g1) ((ex_separateValue_no g2.noColon).weaken le_plus)) (.inr hsh) rfl
      · refine Ex.attemptN (Ex.bind (ex_optSep_key hF hx g1) ((ex_adjacentValue_no g2.noColon).weaken ?_)) (.inr hsh) rfl
        intro i
        unfold plus
        repeat' split
        all_goals omega
  cases h with
  | @value _ c _ i s a _ x e h1 h2 h3 h4 h5 h6 h7 h8 h9 =>
    rcases ex_value_entry_fails (ind := ind) hx hj hF h1 h2 h3 h4 h5 h6 h7 h8 h9 hr (fun i a b => hk i a (by omega)) with
      ⟨g1, g2, g3, g4⟩ | ⟨y, r, r', g1, g2, g3, g4⟩
    · exact .inl ⟨.value h1 g1 h3 h4 g2 h6 g3 h8 h9, g4⟩
    · exact .inr ⟨_, r, r', g1, g2, rfl, fun f => (g3 f).weaken (plus_le (z := q) (fun i h1 h2 _ => ⟨h1, by omega, Nat.le_refl _⟩)), g4⟩
  | @alone _ _ _ x h1 h2 =>
    rcases hr.or with hr' | ⟨j, g1, g2, g3⟩
    · exact .inl ⟨.alone h1 h2, hr'⟩
    · exact .inr (key h1 h2 g1 g2 (by omega))
  | @void _ _ i s x h1 h2 h3 h4 h5 =>
    rcases h2.or with h2' | ⟨j, g1, g2, g3⟩
    · rcases hr.or with hr' | ⟨j, g1, g2, g3⟩
      · exact .inl ⟨.void h1 h2' h3 h4 h5, hr'⟩
      · have hlt := h1.lt
        have hpos := h1.pos
        have hs := h2.le
        have kp := hk p (Nat.le_refl _) (by omega)
        have kj := hk (s + 1 + j) (by omega) (by omega)
        have nx : Next W none i s := ⟨h2', by simp [h3], by simp [isOpen, h3]⟩
        have sep : ∀ {f k}, Ex W i k (optSeparate f ind ctx : M σ Ind) s k ind := ex_optSep hF (by omega) hx.fits h2' h1.sol
        refine .inr ⟨.mappingEntry x .null, s + 1, s + 1 + j, ?_, g2.com, rfl, fun f => ?_, fun f k => ex_optSep_key hF hx g1⟩
        · rcases g2 with h | h | h | h | h <;> simp [h]
        · refine ex_flowMappingImplicit_of hx.fits hj hF h1 (.inl ⟨s, nx⟩) (by omega) (w := .null) rfl (fun g => ?_) (fun g1' g2' => ?_)
          · refine Ex.attemptT (Ex.bind sep ((ex_value_lines hx hj hF h3 (by omega) h4 g1 g2 (by omega)).1.weaken ?_)) rfl
            intro i
            unfold plus
            repeat' split
            all_goals omega
          · refine Ex.attemptT (Ex.bind sep ((ex_value_lines hx hj hF h3 (by omega) h4 g1 g2 ?_).2.weaken ?_)) rfl
            · rw [plus_out (by omega)]
              omega
            · intro i
              unfold plus
              repeat' split
              all_goals omega
    · have hs := h2.le
      exact .inr (key h1 h5 g1 g2 (by omega))

theorem Fl.asked_fails {z : Nat} (hx : Keyed ctx) (hj : JsonDoes json) (hF : Flat W) (h : Fl W (some n) .asked b p e q)
    (hr : Room W (some n) q z) (hm : Comes (W z)) (hk : ∀ i, p ≤ i → i ≤ z → k i + b ≤ 64) :
    (Fl W none .asked b p e q ∧ Room W none q z) ∨
    ∃ y r r', (W r').type ≠ .mappingEnd ∧ (W r').type ≠ .collectEntry ∧ validNode y = true ∧
      (∀ f, Ex W p k (parseFlowMappingEntry f json ind ctx) r (plus k p (z + 1) b) (y, ind)) ∧
      ∀ f k, Ex W r k (optSeparate f ind ctx : M σ Ind) r' k ind := by
  cases h with
  | plain h =>
    obtain ⟨-, -, -, -, ht⟩ := h.entry_facts
    rcases h.entry_fails (ind := ind) hx hj hF hr hm hk with ⟨g1, g2⟩ | ⟨y, r, r', g1, g2, g3, g4, g5⟩
    · exact .inl ⟨.plain g1, g2⟩
    · exact .inr ⟨y, r, r', g1, g2, g3, fun f => ex_flowMappingEntry_plain (by rcases ht with h | h | h | h <;> simp [h]) g3 (g4 f), g5⟩
  | @asked _ _ j _ _ h1 h2 h3 h4 h =>
    obtain ⟨-, -, -, -, ht⟩ := h.entry_facts
    rcases h.entry_fails (ind := ind) hx hj hF hr hm (fun i a b => hk i (by omega) b) with ⟨g1, g2⟩ | ⟨y, r, r', g1, g2, g3, g4, g5⟩
    · exact .inl ⟨.asked h1 h2 h3 h4 g1, g2⟩
    · refine .inr ⟨y, r, r', g1, g2, g3, fun f => ?_, g5⟩
      refine ex_flowMappingEntry_asked hx.flowy hF h1 h2 h3 h4 (by rcases ht with h | h | h | h <;> simp [Begins, h]) g3 ?_
      exact (g4 f).weaken (plus_le (fun i h1 h2 _ => ⟨by omega, by omega, Nat.le_refl _⟩))

/-- The entries of a mapping on several lines, where everything has to be on one line: the loop ends before the closing bracket. -/
theorem Fl.pairs_fail {o : Option Nat} {x : FK} (hx : Keyed ctx) (hj : JsonDoes json) (hF : Flat W) (h : Fl W o x b p v q) : x = .pairs →
    ¬ Fl W none x b p v q → ∀ k : Nat → Nat, (∀ i, p ≤ i → i ≤ q → k i + b ≤ 64) →
      ∃ e r r' l, validNode e = true ∧ (W r').type ≠ .mappingEnd ∧
        (∀ f, Ex W p k (parseFlowMappingEntry f json ind ctx) r l (e, ind)) ∧
        ∀ acc, ∃ acc', ∀ f f', Ex W r l (loop f' (mapBody f json ctx) (acc ++ [e], ind)) r' (plus k p (q + 1) b) (acc', ind) := by
  cases o with
  | none => intro _ h2; exact absurd h h2
  | some n =>
  -- the line ends after the comma
  have stops : ∀ {b p q z r j e} {k : Nat → Nat}, Fl W none .asked b p e q → Room W none q z → (W z).type = .collectEntry → Calm W z →
      Sp W (z + 1) j → Mute (W (z + 1 + j)) → z + 1 + j ≤ r → (∀ i, p ≤ i → i ≤ r → k i + b ≤ 64) →
      ∃ e r0 r' l, validNode e = true ∧ (W r').type ≠ .mappingEnd ∧
        (∀ f, Ex W p k (parseFlowMappingEntry f json ind ctx) r0 l (e, ind)) ∧
        ∀ acc, ∃ acc', ∀ f f', Ex W r0 l (loop f' (mapBody f json ctx) (acc ++ [e], ind)) r' (plus k p (r + 1) b) (acc', ind) := by
    intro b p q z r j e k h1 h2 h3 h4 j1 j2 j3 hk
    obtain ⟨hpos, hb1, hv, hs, -⟩ := h1.asked_facts
    have := h1.le
    have := h2.le
    refine ⟨e, q, z + 1 + j, plus k p (z + 1) b, hv, ?_, fun f => h1.asked_run hx.fits hj hF h2 (.inr h3) (fun i a b => hk i a (by omega)),
      fun acc => ⟨acc ++ [e], fun f f' => ?_⟩⟩
    · rcases j2 with h | h | h | h | h <;> simp [h]
    · have body := ex_mapBody_comma (es := acc ++ [e]) (k := plus k p (z + 1) b) (ind := ind) hF (ex_optSep (f := f) hF (by omega) hx.fits h2 hs) h3 h4
        (ex_optSep_key hF hx j1) ((ex_flowMappingEntry_no (f := f) hx.flowy hj hF.toGround j2.blank (by
          rw [plus_out (by omega)]
          have := hk (z + 1 + j) (by omega) (by omega)
          omega)).attemptN (.inr j2.closed) rfl)
      have stop : ∀ f', Ex W (z + 1 + j) (plus (plus k p (z + 1) b) (z + 1 + j) (z + 1 + j + 1) 1)
          (loop f' (mapBody f json ctx) (acc ++ [e], ind)) (z + 1 + j) _ (acc ++ [e], ind) := fun f' =>
        Ex.loopStop (ex_mapBody_stop (ex_optSep_key hF hx (p := z + 1 + j) (j := 0) (by
          refine Sp.zero ?_ ?_ <;> rcases j2 with h | h | h | h | h <;> simp [h])) j2.com)
      refine (Ex.loopGo body stop).weaken ?_
      intro i'
      unfold plus
      repeat' split
      all_goals omega
  -- the entry itself is not on one line
  have broken : ∀ {b p z r} {k : Nat → Nat}, z ≤ r → (∃ y r0 r', (W r').type ≠ .mappingEnd ∧ (W r').type ≠ .collectEntry ∧ validNode y = true ∧
      (∀ f, Ex W p k (parseFlowMappingEntry f json ind ctx) r0 (plus k p (z + 1) b) (y, ind)) ∧
      ∀ f k, Ex W r0 k (optSeparate f ind ctx : M σ Ind) r' k ind) →
      ∃ e r0 r' l, validNode e = true ∧ (W r').type ≠ .mappingEnd ∧
        (∀ f, Ex W p k (parseFlowMappingEntry f json ind ctx) r0 l (e, ind)) ∧
        ∀ acc, ∃ acc', ∀ f f', Ex W r0 l (loop f' (mapBody f json ctx) (acc ++ [e], ind)) r' (plus k p (r + 1) b) (acc', ind) := by
    intro b p z r k hz ⟨y, r0, r', g1, g2, g3, g4, g5⟩
    refine ⟨y, r0, r', _, g3, g1, g4, fun acc => ⟨acc ++ [y], fun f f' => ?_⟩⟩
    exact Ex.weaken (Ex.loopStop (ex_mapBody_stop (g5 f _) g2)) (plus_le (fun i h1 h2 _ => ⟨h1, by omega, Nat.le_refl _⟩))
  induction h with
  | atom => nofun
  | seqNil => nofun
  | seq => nofun
  | mapNil => nofun
  | map => nofun
  | item => nofun
  | items => nofun
  | itemComma => nofun
  | value => nofun
  | alone => nofun
  | void => nofun
  | plain => nofun
  | asked => nofun
  | @pair b p q z e h1 h2 h3 _ =>
    intro _ hnot k hk
    rcases h1.asked_fails (ind := ind) hx hj hF h2 (.inl h3) hk with ⟨g1, g2⟩ | hg
    · exact absurd (.pair g1 g2 h3) hnot
    · exact broken (Nat.le_refl _) hg
  | @pairComma b p q s z e h1 h2 h3 h4 h5 h6 _ =>
    intro _ hnot k hk
    have hz := h5.le
    rcases h1.asked_fails (ind := ind) hx hj hF h2 (.inr h3) (fun i a b => hk i a (by omega)) with ⟨g1, g2⟩ | hg
    · rcases h5.or with h5' | ⟨j, j1, j2, j3⟩
      · exact absurd (.pairComma g1 g2 h3 h4 h5' h6) hnot
      · exact stops g1 g2 h3 h4 j1 j2 (by omega) hk
    · exact broken (by omega) hg
  | @pairs b p q z u r e es h1 h2 h3 h4 h5 h6 _ ih =>
    intro _ hnot k hk
    have hr := h6.le
    have hz := h2.le
    have hq := h1.le
    have hu := h5.le
    rcases h1.asked_fails (ind := ind) hx hj hF h2 (.inr h3) (fun i a b => hk i a (by omega)) with ⟨g1, g2⟩ | hg
    · rcases h5.or with h5' | ⟨j, j1, j2, j3⟩
      · obtain ⟨hpos, hb1, hv, hs, -⟩ := h1.asked_facts
        have hrest : ¬ Fl W none .pairs b u (.mapping es) r := fun g => hnot (.pairs g1 g2 h3 h4 h5' g)
        have hw : ∀ i', plus (plus k p (z + 1) b) u (r + 1) b i' ≤ plus k p (r + 1) b i' := by
          intro i'
          unfold plus
          repeat' split
          all_goals omega
        obtain ⟨e', r1, r', l, hv', hne, hent, hloop⟩ := ih rfl hrest (plus k p (z + 1) b) (fun i g1 g2 => by
          rw [plus_out (by omega)]
          exact hk i (by omega) g2)
        refine ⟨e, q, r', plus k p (z + 1) b, hv, hne, fun f => g1.asked_run hx.fits hj hF g2 (.inr h3) (fun i a b => hk i a (by omega)), fun acc => ?_⟩
        obtain ⟨acc', hl⟩ := hloop (acc ++ [e])
        refine ⟨acc', fun f f' => ?_⟩
        have body := ex_mapBody_comma (es := acc ++ [e]) hF (ex_optSep (f := f) hF (by omega) hx.fits g2 hs) h3 h4
          (ex_optSep hF (by omega) hx.fits h5' (solW_not (by omega) (by simp [h3]) (by simp [h3]))) ((hent f).attemptT hv')
        rw [if_pos hv'] at body
        exact Ex.weaken (Ex.loopGo body (hl f)) hw
      · exact stops g1 g2 h3 h4 j1 j2 (by omega) hk
    · exact broken (by omega) hg

/-! ### Collections -/

theorem keep_up : W.keep ≤ W.level + 1 := by
  unfold Toks.keep
  split <;> omega

theorem Fits.inner {o : Option Nat} (hx : Fits o ctx ind) : ∃ ctx', Fits o ctx' ind ∧ (Keyed ctx → Keyed ctx') ∧
    ∀ (f : Nat) (json : Content σ), parseInFlow f json ind ctx = parseFlowSequenceEntries f json ind ctx' := by
  rcases hx.flowy with rfl | rfl | rfl | rfl
  · refine ⟨.flowIn, ?_, ?_, fun _ _ => rfl⟩
    · cases o with
      | none => exact .inr (.inr (.inl rfl))
      | some n => exact ⟨.inr rfl, hx.2⟩
    · rintro (h | h) <;> cases h
  · refine ⟨.flowKey, ?_, fun _ => flowKey_keyed, fun _ _ => rfl⟩
    cases o with
    | none => exact flowKey_flowy
    | some n => rcases hx.1 with h | h <;> cases h
  · refine ⟨.flowIn, hx, ?_, fun _ _ => rfl⟩
    rintro (h | h) <;> cases h
  · exact ⟨.flowKey, hx, fun _ => flowKey_keyed, fun _ _ => rfl⟩

/-- A production between brackets. -/
theorem ex_flowSequence {e' : Node} {l : Nat → Nat} {s : Nat} (hP : Plane W) (h1 : (W p).type = .sequenceStart)
    (h2 : Calm W p) (h3 : Ex W.up (p + 1) k (optSeparate f ind ctx : M σ Ind) s k ind)
    (hs : Ex W.up s k (attempt okNode (parseInFlow f json ind ctx)) q l (e', ind))
    (h4 : (W q).type = .sequenceEnd) (h5 : Calm W q) (ho : isOpen (W (q + 1)) = false)
    (he : e = if validNode e' then e' else .sequence []) :
    Ex W p k (parseFlowSequence f json ind ctx) (q + 1) l (e, ind) := by
  unfold parseFlowSequence
  refine ExV.ex ?_
  refine ExV.bind (Ex.hasErrors.v (Nat.le_refl _)) ?_
  simp only [Bool.false_eq_true, if_false]
  refine ExV.bind (Ex.tok.v (Nat.le_refl _)) ?_
  rw [if_neg (by simp [h1])]
  refine ExV.bind (ExV.enter hP.toGround h2 (by simp [isOpen, h1]) keep_up) ?_
  refine ExV.bind (h3.v (keep_up (W := W))) ?_
  refine ExV.bind (hs.v (keep_up (W := W))) ?_
  refine ExV.bind (Ex.tok.v (keep_up (W := W))) ?_
  rw [if_neg (by simp [h4])]
  refine ExV.bind (ExV.leave hP.toGround h5 (by simp [isClose, h4]) ho) ?_
  subst he
  cases hv : validNode e' with
  | true =>
    rw [if_pos (show okNode (e', ind) = true from hv)]
    exact Ex.pure.v (Nat.le_refl _)
  | false =>
    rw [if_neg (by simp [okNode, hv])]
    exact Ex.pure.v (Nat.le_refl _)

theorem ex_flowMapping {e' : Node} {l : Nat → Nat} {s : Nat} (hP : Plane W) (h1 : (W p).type = .mappingStart)
    (h2 : Calm W p) (h3 : Ex W.up (p + 1) k (optSeparate f ind ctx : M σ Ind) s k ind)
    (hs : Ex W.up s k (attempt okNode (parseFlowMappingEntries f json ind ctx)) q l (e', ind))
    (h4 : (W q).type = .mappingEnd) (h5 : Calm W q) (ho : isOpen (W (q + 1)) = false)
    (he : e = if validNode e' then e' else .mapping []) :
    Ex W p k (parseFlowMapping f json ind ctx) (q + 1) l (e, ind) := by
  unfold parseFlowMapping
  refine ExV.ex ?_
  refine ExV.bind (Ex.hasErrors.v (Nat.le_refl _)) ?_
  simp only [Bool.false_eq_true, if_false]
  refine ExV.bind (Ex.tok.v (Nat.le_refl _)) ?_
  rw [if_neg (by simp [h1])]
  refine ExV.bind (ExV.enter hP.toGround h2 (by simp [isOpen, h1]) keep_up) ?_
  refine ExV.bind (h3.v (keep_up (W := W))) ?_
  refine ExV.bind (hs.v (keep_up (W := W))) ?_
  refine ExV.bind (Ex.tok.v (keep_up (W := W))) ?_
  rw [if_neg (by simp [h4])]
  refine ExV.bind (ExV.leave hP.toGround h5 (by simp [isClose, h4]) ho) ?_
  subst he
  cases hv : validNode e' with
  | true =>
    rw [if_pos (show okNode (e', ind) = true from hv)]
    exact Ex.pure.v (Nat.le_refl _)
  | false =>
    rw [if_neg (by simp [okNode, hv])]
    exact Ex.pure.v (Nat.le_refl _)

/-- The closing bracket is not found. -/
theorem ex_flowSequence_fails {e' : Node} {l : Nat → Nat} {s : Nat} (hP : Plane W) (h1 : (W p).type = .sequenceStart)
    (h2 : Calm W p) (h3 : Ex W.up (p + 1) k (optSeparate f ind ctx : M σ Ind) s k ind)
    (hs : Ex W.up s k (attempt okNode (parseInFlow f json ind ctx)) q l (e', ind))
    (h4 : (W q).type ≠ .sequenceEnd) :
    ExV W W.up W.keep p k (parseFlowSequence f json ind ctx) q l (.invalid, ind) := by
  unfold parseFlowSequence
  refine ExV.bind (Ex.hasErrors.v (Nat.le_refl _)) ?_
  simp only [Bool.false_eq_true, if_false]
  refine ExV.bind (Ex.tok.v (Nat.le_refl _)) ?_
  rw [if_neg (by simp [h1])]
  refine ExV.bind (ExV.enter hP.toGround h2 (by simp [isOpen, h1]) keep_up) ?_
  refine ExV.bind (h3.v (keep_up (W := W))) ?_
  refine ExV.bind (hs.v (keep_up (W := W))) ?_
  refine ExV.bind (Ex.tok.v (keep_up (W := W))) ?_
  rw [if_pos h4]
  exact ExV.pure

theorem ex_flowMapping_fails {e' : Node} {l : Nat → Nat} {s : Nat} (hP : Plane W) (h1 : (W p).type = .mappingStart)
    (h2 : Calm W p) (h3 : Ex W.up (p + 1) k (optSeparate f ind ctx : M σ Ind) s k ind)
    (hs : Ex W.up s k (attempt okNode (parseFlowMappingEntries f json ind ctx)) q l (e', ind))
    (h4 : (W q).type ≠ .mappingEnd) :
    ExV W W.up W.keep p k (parseFlowMapping f json ind ctx) q l (.invalid, ind) := by
  unfold parseFlowMapping
  refine ExV.bind (Ex.hasErrors.v (Nat.le_refl _)) ?_
  simp only [Bool.false_eq_true, if_false]
  refine ExV.bind (Ex.tok.v (Nat.le_refl _)) ?_
  rw [if_neg (by simp [h1])]
  refine ExV.bind (ExV.enter hP.toGround h2 (by simp [isOpen, h1]) keep_up) ?_
  refine ExV.bind (h3.v (keep_up (W := W))) ?_
  refine ExV.bind (hs.v (keep_up (W := W))) ?_
  refine ExV.bind (Ex.tok.v (keep_up (W := W))) ?_
  rw [if_pos h4]
  exact ExV.pure

theorem ex_json_coll {o : Option Nat} (ih : JsonDoes json) (hP : Plane W) (h : Fl W o .node b p e q) (ho : isOpen (W p) = true)
    (hq : isOpen (W q) = false) (hk : ∀ i, p < i → i < q → k i + b ≤ 64) (hx : Fits o ctx ind) :
    Ex W p k (parseFlowJSONContent f json ind ctx) q (plus k (p + 1) q b) (e, ind) := by
  unfold parseFlowJSONContent
  refine Ex.bind Ex.tok ?_
  have hF := hP.up
  have sep : 1 ≤ p → ∀ {s}, Room W o (p + 1) s → Ex W.up (p + 1) k (optSeparate f ind ctx : M σ Ind) s k ind := by
    intro hp s hs
    refine ex_optSep hF (by omega) hx hs.up (solW_not (W := W.up) hp ?_ ?_) <;> rcases isOpen_iff.1 ho with h | h <;> simp [h]
  obtain ⟨ctx', hx', -, hin⟩ := hx.inner (σ := σ)
  cases h with
  | atom h => simp [h.closed] at ho
  | @seqNil _ _ q h1 h2 h3 h4 h5 h6 h7 =>
    rw [h2]
    have hle := h4.le
    refine ex_flowSequence (e' := .invalid) hP h2 h3 (sep h1 h4) ?_ h5 h6 hq rfl
    rw [hin]
    refine Ex.weaken (Ex.attemptN (ex_sequenceEntries_no hx'.flowy ih hF.toGround (.of (.inl h5)) ?_) (.inr (by simp [isOpen, h5])) rfl) ?_
    · have := hk q (by omega) (by omega)
      omega
    · exact plus_le fun i g1 g2 _ => ⟨by omega, by omega, h7⟩
  | @seq _ _ s q es h1 h2 h3 h4 h5 h6 h7 =>
    rw [h2]
    have hle := h5.le
    have hs := h4.le
    refine ex_flowSequence (e' := .sequence es) hP h2 h3 (sep h1 h4) ?_ h6 h7 hq rfl
    rw [hin]
    refine Ex.weaken ((ex_sequenceEntries hx' ih hF h5.up ?_).attemptT rfl) ?_
    · intro i g1 g2
      exact hk i (by omega) (by omega)
    · exact plus_le fun i g1 g2 _ => ⟨by omega, by omega, Nat.le_refl _⟩
  | @mapNil _ _ q h1 h2 h3 h4 h5 h6 h7 =>
    rw [h2]
    have hle := h4.le
    refine ex_flowMapping (e' := .invalid) hP h2 h3 (sep h1 h4) ?_ h5 h6 hq rfl
    refine Ex.weaken (Ex.attemptN (ex_mappingEntries_no hx.flowy ih hF.toGround (.of (.inr (.inl h5))) ?_) (.inr (by simp [isOpen, h5])) rfl) ?_
    · have := hk q (by omega) (by omega)
      omega
    · exact plus_le fun i g1 g2 _ => ⟨by omega, by omega, h7⟩
  | @map _ _ s q es h1 h2 h3 h4 h5 h6 h7 =>
    rw [h2]
    have hle := h5.le
    have hs := h4.le
    refine ex_flowMapping (e' := .mapping es) hP h2 h3 (sep h1 h4) ?_ h6 h7 hq rfl
    refine Ex.weaken ((ex_mappingEntries hx ih hF h5.up ?_).attemptT rfl) ?_
    · intro i g1 g2
      exact hk i (by omega) (by omega)
    · exact plus_le fun i g1 g2 _ => ⟨by omega, by omega, Nat.le_refl _⟩

theorem ex_json_fails (ih : JsonDoes json) (hP : Plane W) (h : Fl W (some n) .node b p e q) (hn : ¬ Fl W none .node b p e q)
    (hk : ∀ i, p < i → i < q → k i + b ≤ 64) (hx : Keyed ctx) :
    ∃ r, ExV W W.up W.keep p k (parseFlowJSONContent f json ind ctx) r (plus k (p + 1) q b) (.invalid, ind) := by
  have ho := h.opens hn
  have hF := hP.up
  have sep : 1 ≤ p → ∀ {s}, Room W none (p + 1) s → Ex W.up (p + 1) k (optSeparate f ind ctx : M σ Ind) s k ind := by
    intro hp s hs
    refine ex_optSep hF (by omega) hx.fits hs.up (solW_not (W := W.up) hp ?_ ?_) <;> rcases isOpen_iff.1 ho with h | h <;> simp [h]
  obtain ⟨ctx', hx', hk', hin⟩ := hx.fits.inner (ind := ind) (σ := σ)
  have hx' := hk' hx
  -- the first line ends with the opening bracket
  have seq0 : ∀ {i s}, (W p).type = .sequenceStart → Calm W p → Sp W (p + 1) i → Mute (W (p + 1 + i)) → p + 1 + i < s → s ≤ q → 2 ≤ b →
      ExV W W.up W.keep p k (parseFlowSequence f json ind ctx) (p + 1 + i) (plus k (p + 1) q b) (.invalid, ind) := by
    intro i s h2 h3 g1 g2 g3 g4 g5
    refine ex_flowSequence_fails (e' := .invalid) hP h2 h3 (ex_optSep_key hF hx g1.up) ?_ ?_
    · rw [hin]
      refine Ex.weaken (Ex.attemptN (ex_sequenceEntries_no hx'.flowy ih hF.toGround g2.blank ?_) (.inr g2.closed) rfl) ?_
      · have := hk (p + 1 + i) (by omega) (by omega)
        omega
      · exact plus_le fun i g1 g2 _ => ⟨by omega, by omega, g5⟩
    · rcases g2 with h | h | h | h | h <;> simp [h]
  have map0 : ∀ {i s}, (W p).type = .mappingStart → Calm W p → Sp W (p + 1) i → Mute (W (p + 1 + i)) → p + 1 + i < s → s ≤ q → 1 ≤ b →
      ExV W W.up W.keep p k (parseFlowMapping f json ind ctx) (p + 1 + i) (plus k (p + 1) q b) (.invalid, ind) := by
    intro i s h2 h3 g1 g2 g3 g4 g5
    refine ex_flowMapping_fails (e' := .invalid) hP h2 h3 (ex_optSep_key hF hx g1.up) ?_ ?_
    · refine Ex.weaken (Ex.attemptN (ex_mappingEntries_no hx.flowy ih hF.toGround g2.blank ?_) (.inr g2.closed) rfl) ?_
      · have := hk (p + 1 + i) (by omega) (by omega)
        omega
      · exact plus_le fun i g1 g2 _ => ⟨by omega, by omega, g5⟩
    · rcases g2 with h | h | h | h | h <;> simp [h]
  have goS : ∀ {r l}, (W p).type = .sequenceStart → ExV W W.up W.keep p k (parseFlowSequence f json ind ctx) r l (.invalid, ind) →
      ExV W W.up W.keep p k (parseFlowJSONContent f json ind ctx) r l (.invalid, ind) := by
    intro r l hm h
    unfold parseFlowJSONContent
    refine ExV.bind (Ex.tok.v (Nat.le_refl _)) ?_
    rw [hm]
    exact h
  have goM : ∀ {r l}, (W p).type = .mappingStart → ExV W W.up W.keep p k (parseFlowMapping f json ind ctx) r l (.invalid, ind) →
      ExV W W.up W.keep p k (parseFlowJSONContent f json ind ctx) r l (.invalid, ind) := by
    intro r l hm h
    unfold parseFlowJSONContent
    refine ExV.bind (Ex.tok.v (Nat.le_refl _)) ?_
    rw [hm]
    exact h
  cases h with
  | atom h => simp [h.closed] at ho
  | @seqNil _ _ q h1 h2 h3 h4 h5 h6 h7 =>
    rcases h4.or with h4' | ⟨i, g1, g2, g3⟩
    · exact absurd (.seqNil h1 h2 h3 h4' h5 h6 h7) hn
    · exact ⟨_, goS h2 (seq0 h2 h3 g1 g2 g3 (by omega) h7)⟩
  | @mapNil _ _ q h1 h2 h3 h4 h5 h6 h7 =>
    rcases h4.or with h4' | ⟨i, g1, g2, g3⟩
    · exact absurd (.mapNil h1 h2 h3 h4' h5 h6 h7) hn
    · exact ⟨_, goM h2 (map0 h2 h3 g1 g2 g3 (by omega) h7)⟩
  | @seq _ _ s q es h1 h2 h3 h4 h5 h6 h7 =>
    have hle := h5.le
    have hs := h4.le
    have hb2 : 2 ≤ b := by
      exact h5.items_two.1
    rcases h4.or with h4' | ⟨i, g1, g2, g3⟩
    · have hn' : ¬ Fl W.up none .items b s (.sequence es) q := fun g => hn (.seq h1 h2 h3 h4' (Fl.change (W := W.up) ⟨rfl, rfl, rfl⟩ g) h6 h7)
      have hw : ∀ i, plus k s q b i ≤ plus k (p + 1) (q + 1) b i := plus_le fun i g1 g2 _ => ⟨by omega, by omega, Nat.le_refl _⟩
      rcases h5.up.items_fail (ind := ind) hx' ih hF rfl hn' k (fun i g1 g2 => hk i (by omega) (by omega)) with
        ⟨hop, hA⟩ | ⟨e', r, r', hv, hne, hent, hloop⟩
      · refine ⟨s, goS h2 (ex_flowSequence_fails (e' := .invalid) hP h2 h3 (sep h1 h4') ?_ ?_)⟩
        · rw [hin]
          refine Ex.attemptF (q := s) (Ex.weaken ?_ hw) rfl
          unfold parseFlowSequenceEntries
          refine Ex.bind Ex.hasErrors ?_
          simp only [Bool.false_eq_true, if_false]
          exact Ex.bind (hA f) Ex.pure
        · rcases isOpen_iff.1 hop with h | h <;> exact fun g => by rw [h] at g; cases g
      · obtain ⟨acc', hl⟩ := hloop []
        refine ⟨r', goS h2 (ex_flowSequence_fails (e' := .sequence acc') hP h2 h3 (sep h1 h4') ?_ hne)⟩
        rw [hin]
        refine Ex.attemptT (Ex.weaken ?_ hw) rfl
        unfold parseFlowSequenceEntries
        refine Ex.bind Ex.hasErrors ?_
        simp only [Bool.false_eq_true, if_false]
        refine Ex.bind (hent f) ?_
        rw [if_neg (by simp [okNode, hv])]
        exact Ex.bind (hl f f) Ex.pure
    · exact ⟨_, goS h2 (seq0 h2 h3 g1 g2 g3 (by omega) hb2)⟩
  | @map _ _ s q es h1 h2 h3 h4 h5 h6 h7 =>
    have hle := h5.le
    have hs := h4.le
    have hb1 : 1 ≤ b := by
      exact h5.pairs_one.1
    rcases h4.or with h4' | ⟨i, g1, g2, g3⟩
    · have hn' : ¬ Fl W.up none .pairs b s (.mapping es) q := fun g => hn (.map h1 h2 h3 h4' (Fl.change (W := W.up) ⟨rfl, rfl, rfl⟩ g) h6 h7)
      have hw : ∀ i, plus k s (q + 1) b i ≤ plus k (p + 1) (q + 1) b i := plus_le fun i g1 g2 _ => ⟨by omega, by omega, Nat.le_refl _⟩
      obtain ⟨e', r, r', l, hv, hne, hent, hloop⟩ := h5.up.pairs_fail (ind := ind) hx ih hF rfl hn' k (fun i g1 g2 => hk i (by omega) (by omega))
      obtain ⟨acc', hl⟩ := hloop []
      refine ⟨r', goM h2 (ex_flowMapping_fails (e' := .mapping acc') hP h2 h3 (sep h1 h4') ?_ hne)⟩
      refine Ex.attemptT (Ex.weaken ?_ hw) rfl
      unfold parseFlowMappingEntries
      refine Ex.bind Ex.hasErrors ?_
      simp only [Bool.false_eq_true, if_false]
      refine Ex.bind (hent f) ?_
      rw [if_neg (by simp [okNode, hv])]
      exact Ex.bind (hl f f) Ex.pure
    · exact ⟨_, goM h2 (map0 h2 h3 g1 g2 g3 (by omega) hb1)⟩

theorem jsonDoes_calls : ∀ f, JsonDoes (calls f : Calls σ).json
  | 0 => ⟨fun _ p k ind ctx _ _ _ => Ex.outOfFuel, fun _ _ _ => Ex.outOfFuel, fun _ _ => Ex.outOfFuel, fun _ _ => Ex.outOfFuel, fun _ _ _ _ _ _ => Ex.outOfFuel,
      fun _ _ _ _ _ => ⟨0, fun _ _ _ _ _ h => by cases h⟩⟩
  | f + 1 => by
    have ih := jsonDoes_calls f
    constructor
    · intro W p k ind ctx h1 h2 hn
      show Ex W p k (parseFlowJSONContent f (calls f).json ind ctx) p k (.invalid, ind)
      simp only [isOpen, Bool.or_eq_false_iff, decide_eq_false_iff_not] at hn
      unfold parseFlowJSONContent
      refine Ex.bind Ex.tok ?_
      cases ht : (W p).type <;> first | exact Ex.pure | simp_all
    · intro W d p t q k ind ctx hF h hx
      show Ex W p k (parseFlowJSONContent f (calls f).json ind ctx) (q + 1) k (.text t (quoteKind d), ind)
      unfold parseFlowJSONContent
      refine Ex.bind Ex.tok ?_
      have := ex_quoted (σ := σ) (k := k) (f := f) (ind := ind) hF h hx
      rw [h.first]
      cases d <;> exact this
    · intro W d n p t q k hF h
      show Ex W p k (parseFlowJSONContent f (calls f).json ⟨(n : Int), .strict⟩ .flowOut) (q + 1) k (.text t (quoteKind d), ⟨(n : Int), .strict⟩)
      unfold parseFlowJSONContent
      refine Ex.bind Ex.tok ?_
      have := ex_scroll (σ := σ) (k := k) (f := f) hF h
      rw [h.first]
      cases d <;> exact this
    · intro W d p q k ind hF h
      show Ex W p k (parseFlowJSONContent f (calls f).json ind .blockKey) q k (.invalid, ind)
      unfold parseFlowJSONContent
      refine Ex.bind Ex.tok ?_
      have := ex_cut (σ := σ) (k := k) (f := f) (ind := ind) hF h
      rw [h.first]
      cases d <;> exact this
    · intro W o b p e q k ind ctx hP h ho hq hk hx
      exact ex_json_coll ih hP h ho hq hk hx
    · intro W n b p e q k ind ctx hP h hn hk hx
      exact ex_json_fails ih hP h hn hk hx

/-! ### In a block -/

/-- What the production of JSON content does in a block. -/
structure JsonRun (W : Toks) (json : Content σ) : Prop where
  flat : Flat W
  does : JsonDoes json

theorem jsonRun_calls (hF : Flat W) (f : Nat) : JsonRun W (calls f : Calls σ).json := ⟨hF, jsonDoes_calls f⟩

theorem JsonRun.no (h : JsonRun W json) (p : Nat) (k : Nat → Nat) (ind : Ind) (ctx : PCtx) (h1 : (W p).type ≠ .singleQuote)
    (h2 : (W p).type ≠ .doubleQuote) (h3 : isOpen (W p) = false) : Ex W p k (json ind ctx) p k (.invalid, ind) :=
  h.does.no W p k ind ctx h1 h2 h3

theorem JsonRun.quoted (h : JsonRun W json) (hq : Quoted W d p t q) (hx : Flowy ctx) :
    Ex W p k (json ind ctx) (q + 1) k (.text t (quoteKind d), ind) := h.does.quoted h.flat hq hx

theorem JsonRun.scroll (h : JsonRun W json) (hq : Scroll W d n p t q) :
    Ex W p k (json ⟨(n : Int), .strict⟩ .flowOut) (q + 1) k (.text t (quoteKind d), ⟨(n : Int), .strict⟩) := h.does.scroll h.flat hq

theorem JsonRun.cut (h : JsonRun W json) (hq : Cut W d p q) : Ex W p k (json ind .blockKey) q k (.invalid, ind) := h.does.cut h.flat hq

/-- A collection in brackets, from token `p` to before token `q`, whose brackets are not too deep; its lines after the first one
have at least `N` spaces in front. -/
structure Coll (W : Toks) (N p : Nat) (e : Node) (q : Nat) : Prop where
  opens : isOpen (W p) = true
  run : Fl W (some N) .node 16 p e q

/-- The collection is on one line. -/
def Flush (W : Toks) (p : Nat) (e : Node) (q : Nat) : Prop := Fl W none .node 16 p e q

theorem JsonRun.flush (h : JsonRun W json) (hc : Flush W p e q) (ho : isOpen (W p) = true) (hq : isOpen (W q) = false) (h1 : lo ≤ p) (h2 : q ≤ hi)
    (h3 : u + 16 ≤ 64) (hx : Flowy ctx) : Ex W p (lv lo u hi) (json ind ctx) q (lv lo (u + 16) hi) (e, ind) := by
  refine (h.does.coll (o := none) h.flat.plane hc ho hq ?_ hx).weaken ?_
  · intro i g1 g2
    simp only [lv]
    rw [if_neg (by omega), if_pos (by omega)]
    omega
  · intro i
    unfold plus lv
    repeat' split
    all_goals omega

theorem JsonRun.fails (h : JsonRun W json) (hc : Coll W N p e q) (hn : ¬ Flush W p e q) (h1 : lo ≤ p) (h2 : q ≤ hi)
    (h3 : u + 16 ≤ 64) (hx : Keyed ctx) : ∃ r, ExV W.held W.held.up W.held.keep p (lv lo u hi) (json ind ctx) r (lv lo (u + 16) hi) (.invalid, ind) := by
  obtain ⟨r, hr⟩ := h.does.fails (k := lv lo u hi) (ind := ind) h.flat.plane.held hc.run.held
    (fun g => hn (Fl.change (W := W.held) ⟨rfl, rfl, rfl⟩ g)) (by
      intro i g1 g2
      simp only [lv]
      rw [if_neg (by omega), if_pos (by omega)]
      omega) hx
  refine ⟨r, hr.weaken ?_⟩
  intro i
  unfold plus lv
  repeat' split
  all_goals omega

theorem JsonRun.coll (h : JsonRun W json) (hc : Coll W N p e q) (hq : isOpen (W q) = false) (h1 : lo ≤ p) (h2 : q ≤ hi) (h3 : u + 16 ≤ 64)
    (hx : Fits (some N) ctx ind) : Ex W p (lv lo u hi) (json ind ctx) q (lv lo (u + 16) hi) (e, ind) := by
  refine (h.does.coll h.flat.plane hc.run hc.opens hq ?_ hx).weaken ?_
  · intro i g1 g2
    simp only [lv]
    rw [if_neg (by omega), if_pos (by omega)]
    omega
  · intro i
    unfold plus lv
    repeat' split
    all_goals omega

/-- A scalar or a collection in brackets on a line. -/
inductive Body (W : Toks) (N : Nat) : Nat → Node → Nat → Prop
  | scal {p q : Nat} {e : Node} : Scal W p e q → Body W N p e q
  | coll {p q : Nat} {e : Node} : Coll W N p e q → Body W N p e q
  | loose {p q : Nat} {t : List Char} : Wide W p t q → Body W N p (.text t .unknown) q

/-- The same, or a scalar on several lines. -/
inductive Whole (W : Toks) (N : Nat) : Nat → Node → Nat → Prop
  | body {p q : Nat} {e : Node} : Body W N p e q → Whole W N p e q
  | lines {p q r : Nat} {t u : List Char} : Wide W p t q → Para W .flowOut N q u r → Whole W N p (.text (t ++ u) .unknown) r
  | scroll {d : Bool} {p q : Nat} {t : List Char} : Scroll W d N p t q → Whole W N p (.text t (quoteKind d)) (q + 1)

/-- The same, or an alias. -/
inductive Core (W : Toks) (N : Nat) : Nat → Node → Nat → Prop
  | body {p q : Nat} {e : Node} : Whole W N p e q → Core W N p e q
  | ref {p q : Nat} {e : Node} : Alia W p e q → Core W N p e q

theorem Coll.type (h : Coll W N p e q) : (W p).type = .sequenceStart ∨ (W p).type = .mappingStart := isOpen_iff.1 h.opens

theorem Body.lt (h : Body W N p e q) : p < q := by
  cases h with
  | scal h => exact h.lt
  | coll h => exact h.run.le
  | loose h => exact h.lt

theorem Body.valid (h : Body W N p e q) : validNode e = true := by
  cases h with
  | scal h => exact h.valid
  | coll h => exact h.run.valid
  | loose h => rfl

theorem Body.type (h : Body W N p e q) : (W p).type = .string ∨ (W p).type = .singleQuote ∨ (W p).type = .doubleQuote ∨
    (W p).type = .sequenceStart ∨ (W p).type = .mappingStart := by
  cases h with
  | scal h => rcases h.type with h | h | h <;> simp [h]
  | coll h => rcases h.type with h | h <;> simp [h]
  | loose h => simp [h.str]

theorem Whole.lt (h : Whole W N p e q) : p < q := by
  cases h with
  | body h => exact h.lt
  | lines h h2 =>
    have := h.lt
    have := h2.le
    omega
  | scroll h =>
    have := h.lt
    omega

theorem Whole.valid (h : Whole W N p e q) : validNode e = true := by
  cases h with
  | body h => exact h.valid
  | lines => rfl
  | scroll => rfl

theorem quoteTok_or {t : Tok} (h : t.type = quoteTok d) : t.type = .singleQuote ∨ t.type = .doubleQuote := by
  cases d <;> simp_all [quoteTok]

theorem Whole.type (h : Whole W N p e q) : (W p).type = .string ∨ (W p).type = .singleQuote ∨ (W p).type = .doubleQuote ∨
    (W p).type = .sequenceStart ∨ (W p).type = .mappingStart := by
  cases h with
  | body h => exact h.type
  | lines h => simp [h.str]
  | scroll h => rcases quoteTok_or h.first with h | h <;> simp [h]

theorem Core.lt (h : Core W N p e q) : p < q := by
  cases h with
  | body h => exact h.lt
  | ref h => exact (Atom.ref h).lt

theorem Core.valid (h : Core W N p e q) : validNode e = true := by
  cases h with
  | body h => exact h.valid
  | ref h => exact (Atom.ref h).valid

theorem Core.type (h : Core W N p e q) : (W p).type = .string ∨ (W p).type = .singleQuote ∨ (W p).type = .doubleQuote ∨
    (W p).type = .sequenceStart ∨ (W p).type = .mappingStart ∨ (W p).type = .alias := by
  cases h with
  | body h => rcases h.type with h | h | h | h | h <;> simp [h]
  | ref h => simp [h.sign]

theorem Atom.core (h : Atom W p e q) : Core W N p e q := by
  cases h with
  | scal h => exact .body (.body (.scal h))
  | ref h => exact .ref h

theorem Core.cases' (h : Core W N p e q) : Atom W p e q ∨ Coll W N p e q ∨ isOpen (W p) = false := by
  cases h with
  | body h =>
    cases h with
    | body h =>
      cases h with
      | scal h => exact .inl (.scal h)
      | coll h => exact .inr (.inl h)
      | loose h => exact .inr (.inr (Free.of h.str).1)
    | lines h => exact .inr (.inr (Free.of h.str).1)
    | scroll h => exact .inr (.inr (quote_free h.first).1)
  | ref h => exact .inl (.ref h)

end Verif.Parser
