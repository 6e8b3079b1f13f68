import Lean.Elab.Tactic
import Verif.Lemmas.ParserEntry
import Verif.Spec.Says

/-!
Rules for reasoning about what a production of the parser has read: partial correctness, with the text which was passed.
The tactic `tp` runs through the text of a production.
-/

set_option linter.unusedSimpArgs false
set_option linter.unusedSectionVars false

namespace Verif.Parser

open Verif.Token Verif.Lexer Verif.Ast Verif.Spec.Says
open Lean Meta Elab Tactic

/-! ### Tokens and their text -/

/-- The text of the tokens which stand for themselves. -/
structure Orig (t : Tok) : Prop where
  sequenceStart : t.type = .sequenceStart → t.origin = ['[']
  sequenceEnd : t.type = .sequenceEnd → t.origin = [']']
  mappingStart : t.type = .mappingStart → t.origin = ['{']
  mappingEnd : t.type = .mappingEnd → t.origin = ['}']
  collectEntry : t.type = .collectEntry → t.origin = [',']
  mappingValue : t.type = .mappingValue → t.origin = [':']
  sequenceEntry : t.type = .sequenceEntry → t.origin = ['-']
  anchor : t.type = .anchor → t.origin = ['&']
  star : t.type = .alias → t.origin = ['*']
  tag : t.type = .tag → t.origin = ['!']
  singleQuote : t.type = .singleQuote → t.origin = ['\'']
  doubleQuote : t.type = .doubleQuote → t.origin = ['"']
  lineBreak : t.type = .lineBreak → ink t.origin = []

theorem orig_base (l : Lexer) (r : Option Char) (t : Tok) (h : (baseMatching l r).1 = some t) : Orig t := by
  unfold baseMatching at h
  repeat' first | split at h | (dsimp only at h; split at h)
  all_goals
    first
    | (cases h; constructor <;> intro hx <;> first | rfl | cases hx)
    | (simp only [single, Option.some.injEq] at h; subst h; constructor <;> intro hx <;> first | rfl | cases hx)
    | cases h

theorem orig_match (l : Lexer) (r : Option Char) (t : Tok) (h : (matchSpecialToken l r).1 = some t) : Orig t := by
  unfold matchSpecialToken blockMatching flowMatching commentMatching multilineBlockStartMatching singleQuoteMatching
    doubleQuoteMatching tagMatching rawMatching at h
  repeat' split at h
  all_goals
    first
    | exact orig_base _ _ _ h
    | (simp only [single, singleSwitch, singleRevert, triple, Option.some.injEq] at h; subst h; constructor <;> intro hx <;>
        first | rfl | cases hx)
    | cases h

/-- A string token. -/
theorem orig_string {t : Tok} (h : t.type = .string) : Orig t := by
  constructor <;> intro hx <;> rw [h] at hx <;> cases hx

theorem orig_emit (fuel : Nat) : ∀ (l : Lexer) (str : Option (Pos × List Char)) (t : Tok) (l' : Lexer),
    l.prepared = none → emitLoop fuel l str = some (t, l') → Orig t ∧ ∀ x, l'.prepared = some x → Orig x := by
  induction fuel with
  | zero => intro l str t l' _ h; simp [emitLoop] at h
  | succ fuel ih =>
    intro l str t l' hp h
    simp only [emitLoop] at h
    generalize hl1 : ({ l with rest := (raNext l.rest).2, pos := { l.pos with col := l.pos.col + 1 } } : Lexer) = l1 at h
    have hp1 : l1.prepared = none := by rw [← hl1]; exact hp
    have hsh := shape_match l1 (raNext l.rest).1
    have hor := orig_match l1 (raNext l.rest).1
    generalize hm : matchSpecialToken l1 (raNext l.rest).1 = m at h hsh hor
    obtain ⟨o, l2⟩ := m
    cases o with
    | some special =>
      obtain ⟨-, hp2⟩ := noKeyword_shape hsh
      have hk := hor special rfl
      dsimp only at h
      cases str with
      | some st =>
        simp only [Option.some.injEq, Prod.mk.injEq] at h
        obtain ⟨rfl, rfl⟩ := h
        refine ⟨orig_string rfl, fun x hx => ?_⟩
        simp only [Option.some.injEq] at hx
        rw [← hx]; exact hk
      | none =>
        simp only [Option.some.injEq, Prod.mk.injEq] at h
        obtain ⟨rfl, rfl⟩ := h
        refine ⟨hk, fun x hx => ?_⟩
        simp [hp2, hp1] at hx
    | none =>
      have hp2 := prepared_shape hsh
      dsimp only at h
      cases hr : (raNext l.rest).1 with
      | none => simp [hr] at h
      | some c =>
        simp only [hr] at h
        cases str with
        | none => exact ih _ _ _ _ (by simp [hp2, hp1]) h
        | some st => exact ih _ _ _ _ (by simp [hp2, hp1]) h

theorem orig_next {fuel : Nat} {l l' : Lexer} {t : Tok} (hp : ∀ x, l.prepared = some x → Orig x)
    (h : nextFuel fuel l = some (t, l')) : Orig t ∧ ∀ x, l'.prepared = some x → Orig x := by
  unfold nextFuel at h
  cases hq : l.prepared with
  | some x =>
    simp only [hq, Option.some.injEq, Prod.mk.injEq] at h
    obtain ⟨rfl, rfl⟩ := h
    exact ⟨hp x hq, fun y hy => by simp at hy⟩
  | none =>
    simp only [hq] at h
    exact orig_emit fuel l none t l' hq h

/-- Token streams which read a text. -/
class TextStream (σ : Type) [TokenStream σ] [StreamOk σ] where
  sound : σ → Prop
  left : σ → List Char
  pull_sound : ∀ s, StreamOk.inv s → sound s → sound (TokenStream.pull s).2
  raw_sound : ∀ s v, sound s → sound (TokenStream.setRaw v s)
  pull_orig : ∀ s, StreamOk.inv s → sound s → Orig (TokenStream.pull s).1
  pull_left : ∀ s, StreamOk.inv s → left s = (TokenStream.pull s).1.origin ++ left (TokenStream.pull s).2
  raw_left : ∀ s v, left (TokenStream.setRaw v s) = left s

/-- The text which the tokenizer has not given away. -/
def textLeft (l : Lexer) : List Char :=
  match l.prepared with
  | none => l.rest
  | some t => t.origin ++ l.rest

theorem textLeft_ready {l : Lexer} {p : Pos} {text : List Char} (h : Ready l p text) : textLeft l = text := by
  unfold textLeft
  unfold Ready at h
  cases hp : l.prepared with
  | none => simp only [hp] at h ⊢; exact h.2
  | some t => simp only [hp] at h ⊢; exact h.2.1.symm

theorem lexNext_orig {l : Lexer} (h : LexerOk l) (hs : ∀ x, l.prepared = some x → Orig x) :
    Orig (lexNext l).1 ∧ ∀ x, (lexNext l).2.prepared = some x → Orig x := by
  obtain ⟨⟨p, text, hr⟩, hk⟩ := h
  obtain ⟨t, l', q, text', h1, h2, h3, h4, -, h6⟩ := next_spec (l.rest.length + 1) l p text hr (Nat.le_refl _)
  have e : lexNext l = (t, l') := by simp [lexNext, h1]
  rw [e]
  exact orig_next hs h1

theorem lexNext_left {l : Lexer} (h : LexerOk l) : textLeft l = (lexNext l).1.origin ++ textLeft (lexNext l).2 := by
  obtain ⟨⟨p, text, hr⟩, hk⟩ := h
  obtain ⟨t, l', q, text', h1, h2, h3, h4, -, h6⟩ := next_spec (l.rest.length + 1) l p text hr (Nat.le_refl _)
  have e : lexNext l = (t, l') := by simp [lexNext, h1]
  rw [e, textLeft_ready hr, textLeft_ready h4]
  exact h3

instance : TextStream Lexer where
  sound l := ∀ x, l.prepared = some x → Orig x
  left := textLeft
  pull_sound _ h hs := (lexNext_orig h hs).2
  raw_sound _ _ h := h
  pull_orig _ h hs := (lexNext_orig h hs).1
  pull_left _ h := lexNext_left h
  raw_left _ _ := rfl

/-! ### The text which was passed -/

/-- A text, ordered by being a prefix. -/
structure Txt where
  l : List Char

instance : LE Txt := ⟨fun a b => a.l <+: b.l⟩

instance : Std.IsPreorder Txt where
  le_refl a := List.prefix_refl a.l
  le_trans _ _ _ h1 h2 := List.IsPrefix.trans h1 h2

/-- The word `u` was read between `g` and `g'`. -/
def Btw (g g' : Txt) (u : List Char) : Prop := ∃ v, g'.l = g.l ++ v ∧ u.Sublist v

theorem Btw.le {g g' : Txt} {u : List Char} (h : Btw g g' u) : g ≤ g' := by
  obtain ⟨v, hv, -⟩ := h
  exact ⟨v, hv.symm⟩

theorem Btw.nil {g g' : Txt} (h : g ≤ g') : Btw g g' [] := by
  obtain ⟨v, hv⟩ := h
  exact ⟨v, hv.symm, List.nil_sublist _⟩

theorem Btw.wide {a b c d : Txt} {u : List Char} (h : Btw b c u) (h1 : a ≤ b) (h2 : c ≤ d) : Btw a d u := by
  obtain ⟨v, hv, hu⟩ := h
  obtain ⟨x, hx⟩ := h1
  obtain ⟨y, hy⟩ := h2
  refine ⟨x ++ v ++ y, ?_, ?_⟩
  · rw [← hy, hv, ← hx]; simp
  · exact hu.trans ((List.sublist_append_right _ _).trans (List.sublist_append_left _ _))

theorem Btw.app {a b c d : Txt} {u w : List Char} (h1 : Btw a b u) (h : b ≤ c) (h2 : Btw c d w) : Btw a d (u ++ w) := by
  obtain ⟨v, hv, hu⟩ := h1
  obtain ⟨v', hv', hw⟩ := h2.wide h (show d ≤ d from List.prefix_refl _)
  refine ⟨v ++ v', ?_, hu.append hw⟩
  rw [hv', hv]; simp

theorem Btw.sub {a b : Txt} {u u' : List Char} (h : Btw a b u) (hs : u'.Sublist u) : Btw a b u' := by
  obtain ⟨v, hv, hu⟩ := h
  exact ⟨v, hv, hs.trans hu⟩

/-- The text which was passed. -/
def Abs.x (A : Abs) : Txt := ⟨(A.log.take (A.pos - 1)).flatMap Tok.origin⟩

theorem x_le {A A' : Abs} (hl : ∃ E, A'.log = A.log ++ E) (hp : A.pos ≤ A'.pos) (hle : A.pos ≤ A.log.length) : A.x ≤ A'.x := by
  obtain ⟨E, he⟩ := hl
  show _ <+: _
  unfold Abs.x
  have h1 : A.log.take (A.pos - 1) = A'.log.take (A.pos - 1) := by
    rw [he, List.take_append_of_le_length (by omega)]
  have h2 : A'.log.take (A'.pos - 1) = A'.log.take (A.pos - 1) ++ (A'.log.drop (A.pos - 1)).take (A'.pos - 1 - (A.pos - 1)) := by
    rw [← List.take_add]
    congr 1
    omega
  dsimp only
  rw [h1, h2, List.flatMap_append]
  exact List.prefix_append _ _

theorem x_succ {log : List Tok} {p : Nat} {c c' : List Nat} (h1 : 1 ≤ p) (h2 : p ≤ log.length) (E : List Tok) :
    (Abs.x ⟨log ++ E, p + 1, c⟩).l = (Abs.x ⟨log, p, c'⟩).l ++ (curAt log p).origin := by
  obtain ⟨q, rfl⟩ : ∃ q, p = q + 1 := ⟨p - 1, by omega⟩
  simp only [Abs.x, Nat.add_sub_cancel]
  rw [List.take_append_of_le_length (by omega), List.take_add_one, List.flatMap_append]
  simp [curAt, sq, List.getElem?_eq_getElem (show q < log.length by omega)]

variable {σ α β : Type} [TokenStream σ] [StreamOk σ] [TextStream σ]

/-- The tokens are those of the text `S`. -/
structure Genuine (S : List Char) (t : P σ) (A : Abs) : Prop where
  orig : ∀ x ∈ A.log, Orig x
  sound : TextStream.sound t.src.stream
  text : A.log.flatMap Tok.origin ++ TextStream.left t.src.stream = S

theorem Genuine.tok {S : List Char} {B : Nat} {t : P σ} {A : Abs} (h : Genuine S t A) (hr : R B t A) : Orig t.tok := by
  rw [hr.tok]
  apply h.orig
  have := hr.pos1
  have := hr.posle
  unfold curAt sq
  rw [List.getD_eq_getElem?_getD, List.getElem?_eq_getElem (by omega)]
  exact List.getElem_mem _

theorem Genuine.x {S : List Char} {t : P σ} {A : Abs} (h : Genuine S t A) : A.x.l <+: S := by
  rw [← h.text]
  refine List.IsPrefix.trans ?_ (List.prefix_append _ _)
  show _ <+: _
  conv => rhs; rw [← List.take_append_drop (A.pos - 1) A.log, List.flatMap_append]
  exact List.prefix_append _ _

/-! ### Partial correctness -/

/-- If the step ends then with `Q`. -/
def Pt (B : Nat) (m : M σ α) (t : P σ) (Q : α → P σ → Abs → Prop) : Prop :=
  ∀ a t', m t = .ok (a, t') → ∃ A', R B t' A' ∧ Q a t' A'

theorem Pt.of {B : Nat} {m : M σ α} {t : P σ} {Q Q' : α → P σ → Abs → Prop} (w : Wp B m t Q)
    (k : ∀ a t' A', m t = .ok (a, t') → R B t' A' → Q a t' A' → Q' a t' A') : Pt B m t Q' := by
  obtain ⟨a, t', A', h1, h2, h3, -⟩ := w
  intro b t'' h
  rw [h1] at h
  cases h
  exact ⟨A', h2, k _ _ _ h1 h2 h3⟩

theorem Pt.mono {B : Nat} {m : M σ α} {t : P σ} {Q Q' : α → P σ → Abs → Prop} (h : Pt B m t Q)
    (hq : ∀ a t' A', R B t' A' → Q a t' A' → Q' a t' A') : Pt B m t Q' := by
  intro a t' e
  obtain ⟨A', h1, h2⟩ := h a t' e
  exact ⟨A', h1, hq _ _ _ h1 h2⟩

theorem Pt.bind {B : Nat} {m : M σ α} {k : α → M σ β} {t : P σ} {Q : β → P σ → Abs → Prop}
    (h : Pt B m t (fun a t' _ => Pt B (k a) t' Q)) : Pt B (m >>= k) t Q := by
  intro b t'' e
  have e' : M.bind m k t = .ok (b, t'') := e
  unfold M.bind at e'
  cases hm : m t with
  | ok r =>
    obtain ⟨a, t'⟩ := r
    rw [hm] at e'
    obtain ⟨A', -, h2⟩ := h a t' hm
    exact h2 b t'' e'
  | timeout => rw [hm] at e'; cases e'
  | panic => rw [hm] at e'; cases e'

theorem Pt.pure {B : Nat} {a : α} {t : P σ} {A : Abs} {Q : α → P σ → Abs → Prop} (hR : R B t A) (h : Q a t A) :
    Pt B (Pure.pure a : M σ α) t Q := by
  intro b t' e
  cases e
  exact ⟨A, hR, h⟩

theorem Pt.ite {B : Nat} {t : P σ} {c : Prop} {_ : Decidable c} {a b : M σ α} {Q : α → P σ → Abs → Prop} (h1 : c → Pt B a t Q)
    (h2 : ¬ c → Pt B b t Q) : Pt B (if c then a else b) t Q := by
  split
  · exact h1 ‹_›
  · exact h2 ‹_›

theorem Pt.ite_pos {B : Nat} {t : P σ} {c : Prop} {_ : Decidable c} {a b : M σ α} {Q : α → P σ → Abs → Prop} (hc : c)
    (h : Pt B a t Q) : Pt B (if c then a else b) t Q := by
  rw [if_pos hc]; exact h

theorem Pt.ite_neg {B : Nat} {t : P σ} {c : Prop} {_ : Decidable c} {a b : M σ α} {Q : α → P σ → Abs → Prop} (hc : ¬ c)
    (h : Pt B b t Q) : Pt B (if c then a else b) t Q := by
  rw [if_neg hc]; exact h

theorem Pt.iteB {B : Nat} {t : P σ} {b : Bool} {_ : Decidable (b = true)} {x y : M σ α} {Q : α → P σ → Abs → Prop}
    (h1 : b = true → Pt B x t Q) (h2 : b = false → Pt B y t Q) : Pt B (if b = true then x else y) t Q :=
  Pt.ite h1 (fun h => h2 (by simpa using h))

theorem Pt.iteN {B : Nat} {t : P σ} {b : Bool} {_ : Decidable ((!b) = true)} {x y : M σ α} {Q : α → P σ → Abs → Prop}
    (h1 : b = false → Pt B x t Q) (h2 : b = true → Pt B y t Q) : Pt B (if (!b) = true then x else y) t Q :=
  Pt.ite (fun h => h1 (by simpa using h)) (fun h => h2 (by simpa using h))

theorem Pt.iteNe {B : Nat} {t : P σ} {β : Type} {u v : β} {_ : Decidable (u ≠ v)} {x y : M σ α} {Q : α → P σ → Abs → Prop}
    (h1 : u ≠ v → Pt B x t Q) (h2 : u = v → Pt B y t Q) : Pt B (if u ≠ v then x else y) t Q :=
  Pt.ite h1 (fun h => h2 (Classical.not_not.1 h))

theorem Pt.iteBt {B : Nat} {t : P σ} {b : Bool} {_ : Decidable (b = true)} {x y : M σ α} {Q : α → P σ → Abs → Prop}
    (h : b = true) (h1 : Pt B x t Q) : Pt B (if b = true then x else y) t Q := Pt.ite_pos h h1

theorem Pt.iteBf {B : Nat} {t : P σ} {b : Bool} {_ : Decidable (b = true)} {x y : M σ α} {Q : α → P σ → Abs → Prop}
    (h : b = false) (h1 : Pt B y t Q) : Pt B (if b = true then x else y) t Q := Pt.ite_neg (by simp [h]) h1

theorem Pt.iteNt {B : Nat} {t : P σ} {b : Bool} {_ : Decidable ((!b) = true)} {x y : M σ α} {Q : α → P σ → Abs → Prop}
    (h : b = true) (h1 : Pt B y t Q) : Pt B (if (!b) = true then x else y) t Q := Pt.ite_neg (by simp [h]) h1

theorem Pt.iteNf {B : Nat} {t : P σ} {b : Bool} {_ : Decidable ((!b) = true)} {x y : M σ α} {Q : α → P σ → Abs → Prop}
    (h : b = false) (h1 : Pt B x t Q) : Pt B (if (!b) = true then x else y) t Q := Pt.ite_pos (by simp [h]) h1

/-- `m`, started with some open checkpoint, ends with `post` if it ends. -/
def TSpec (B : Nat) (S : List Char) (m : M σ α) (post : α → Abs → Abs → Prop) : Prop :=
  ∀ t A, R B t A → Genuine S t A → A.cps ≠ [] → Pt B m t (fun a t' A' => Genuine S t' A' ∧ Adv A A' ∧ post a A A')

/-- The run which started in `A0` has come to `A`. -/
structure TSt (B : Nat) (S : List Char) (A0 : Abs) (t : P σ) (A : Abs) : Prop where
  st : St B A0 t A
  good : Genuine S t A

section Rules

variable {B : Nat} {S : List Char} {A0 A : Abs} {t : P σ}

theorem TSpec.intro {m : M σ α} {post : α → Abs → Abs → Prop}
    (h : ∀ t A, TSt B S A t A → Pt B m t (fun a t' A' => Genuine S t' A' ∧ Adv A A' ∧ post a A A')) : TSpec B S m post :=
  fun t A hr hg hc => h t A ⟨.start hr hc, hg⟩

theorem TSt.fin {P : Prop} (h : TSt B S A0 t A) (k : P) : Genuine S t A ∧ Adv A0 A ∧ P := ⟨h.good, h.st.adv, k⟩

theorem TSpec.mono {m : M σ α} {post post' : α → Abs → Abs → Prop} (h : TSpec B S m post)
    (hp : ∀ a A A', A.x ≤ A'.x → post a A A' → post' a A A') : TSpec B S m post' := by
  intro t A hr hg hc
  refine (h t A hr hg hc).mono ?_
  intro a t' A' hr' ⟨h1, h2, h3⟩
  exact ⟨h1, h2, hp _ _ _ (x_le h2.log h2.pos hr.posle) h3⟩

theorem TSt.pure {a : α} {Q : α → P σ → Abs → Prop} (h : TSt B S A0 t A) (k : Q a t A) : Pt B (Pure.pure a : M σ α) t Q :=
  Pt.pure h.st.r k

theorem TSt.tok {Q : Tok → P σ → Abs → Prop} (h : TSt B S A0 t A) (k : Orig t.tok → Q t.tok t A) :
    Pt B (Parser.tok : M σ Tok) t Q := by
  intro a t' e
  cases e
  exact ⟨A, h.st.r, k (h.good.tok h.st.r)⟩

theorem TSt.hasErrors {Q : Bool → P σ → Abs → Prop} (h : TSt B S A0 t A) (k : ∀ e, Q e t A) :
    Pt B (Parser.hasErrors : M σ Bool) t Q := by
  intro a t' e
  cases e
  exact ⟨A, h.st.r, k _⟩

theorem TSt.startOfLine {Q : Bool → P σ → Abs → Prop} (h : TSt B S A0 t A) (k : ∀ s, Q s t A) :
    Pt B (Parser.startOfLine : M σ Bool) t Q := by
  intro a t' e
  cases e
  exact ⟨A, h.st.r, k _⟩

theorem TSt.same {t' : P σ} (h : TSt B S A0 t A) (hr : R B t' A) (hs : t'.src.stream = t.src.stream) : TSt B S A0 t' A :=
  ⟨h.st.move hr (.refl _), ⟨h.good.orig, hs ▸ h.good.sound, hs ▸ h.good.text⟩⟩

theorem TSt.appendError {e : PErr} {Q : Unit → P σ → Abs → Prop} (h : TSt B S A0 t A)
    (k : ∀ t', TSt B S A0 t' A → t'.tok = t.tok → Q () t' A) : Pt B (Parser.appendError e : M σ Unit) t Q := by
  intro a t' e'
  cases e'
  have hR : R B ⟨t.src, t.tok, t.saved, t.sol, t.errors ++ [e], t.bal, t.marks, t.pool⟩ A :=
    h.st.r.congr rfl rfl rfl rfl h.st.r.pool
  exact ⟨A, hR, k _ (h.same hR rfl) rfl⟩

theorem TSt.mark {x : Tok} {Q : Bool → P σ → Abs → Prop} (h : TSt B S A0 t A)
    (k : ∀ b t', TSt B S A0 t' A → t'.tok = t.tok → Q b t' A) : Pt B (Parser.mark x : M σ Bool) t Q := by
  intro a t' e'
  cases e'
  have hR : R B ⟨t.src, t.tok, t.saved, t.sol, t.errors, t.bal, bump t.marks x.start, t.pool⟩ A :=
    h.st.r.congr rfl rfl rfl rfl h.st.r.pool
  exact ⟨A, hR, k _ _ (h.same hR rfl) rfl⟩

theorem TSt.setRaw {v : Bool} {Q : Unit → P σ → Abs → Prop} (h : TSt B S A0 t A)
    (k : ∀ t', TSt B S A0 t' A → t'.tok = t.tok → Q () t' A) : Pt B (Parser.setRaw v : M σ Unit) t Q := by
  refine Pt.of (Q := fun _ t' A' => A' = A ∧ t'.tok = t.tok) (wp_setRaw h.st.r (fun t' _ ht _ => ⟨rfl, ht⟩)) ?_
  rintro _ t' A' e hr ⟨rfl, ht⟩
  refine k t' ⟨h.st.move hr (.refl _), ?_⟩ ht
  cases e
  refine ⟨h.good.orig, TextStream.raw_sound _ _ h.good.sound, ?_⟩
  show _ ++ TextStream.left (TokenStream.setRaw v t.src.stream) = S
  rw [TextStream.raw_left]
  exact h.good.text

theorem TSt.getBuf {Q : Buf → P σ → Abs → Prop} (h : TSt B S A0 t A)
    (k : ∀ t', TSt B S A0 t' A → t'.tok = t.tok → Q [] t' A) : Pt B (Parser.getBuf : M σ Buf) t Q := by
  refine Pt.of (Q := fun b t' A' => b = [] ∧ A' = A ∧ t'.tok = t.tok) (wp_getBuf h.st.r (fun t' _ ht => ⟨rfl, rfl, ht⟩)) ?_
  rintro _ t' A' e hr ⟨rfl, rfl, ht⟩
  refine k t' (h.same hr ?_) ht
  unfold Parser.getBuf at e
  cases hp : t.pool with
  | nil => simp only [hp] at e; cases e; rfl
  | cons b r => simp only [hp] at e; cases e; rfl

theorem TSt.resetAndPut {b : Buf} {Q : Unit → P σ → Abs → Prop} (h : TSt B S A0 t A)
    (k : ∀ t', TSt B S A0 t' A → t'.tok = t.tok → Q () t' A) : Pt B (Parser.resetAndPut b : M σ Unit) t Q := by
  refine Pt.of (Q := fun _ t' A' => A' = A ∧ t'.tok = t.tok) (wp_resetAndPut h.st.r (fun t' _ ht => ⟨rfl, ht⟩)) ?_
  rintro _ t' A' e hr ⟨rfl, ht⟩
  refine k t' (h.same hr ?_) ht
  cases e
  rfl

theorem TSt.truncate {n : Nat} {b : Buf} {Q : Buf → P σ → Abs → Prop} (h : TSt B S A0 t A)
    (k : Q (b.take n) t A) : Pt B (Parser.truncate n b : M σ Buf) t Q := by
  intro a t' e
  unfold Parser.truncate at e
  split at e
  · cases e
    exact ⟨A, h.st.r, k⟩
  · cases e

/-- The stream after `next`. -/
theorem next_stream {t t' : P σ} (e : (Parser.next : M σ Unit) t = .ok ((), t')) : t'.src = (step t).src := by
  unfold Parser.next at e
  split at e
  · cases e
  · cases e
    exact (balance_src (step t)).1

theorem TSt.next {Q : Unit → P σ → Abs → Prop} (h : TSt B S A0 t A) (hb : t.tok.type ≠ .bom)
    (k : ∀ t' A', TSt B S A0 t' A' → Btw A.x A'.x t.tok.origin → A.x ≤ A'.x → A'.cps = A.cps → Q () t' A') :
    Pt B (Parser.next : M σ Unit) t Q := by
  have hR := h.st.r
  have hbt : ∀ E : List Tok, Btw A.x (Abs.x ⟨A.log ++ E, A.pos + 1, A.cps⟩) t.tok.origin := fun E =>
    ⟨t.tok.origin, by rw [hR.tok]; exact x_succ hR.pos1 hR.posle E, List.Sublist.refl _⟩
  cases hi : t.src.ind with
  | none =>
    obtain ⟨hpos, hR'⟩ := step_pull hR hi
    have hadv : Adv A ⟨A.log ++ [(TokenStream.pull t.src.stream).1], A.pos + 1, A.cps⟩ := by
      refine ⟨⟨_, rfl⟩, Nat.le_succ _, ⟨[], by simp⟩, ?_⟩
      intro q h1 h2
      have : q = A.pos := by simp at h2; omega
      subst this
      rw [curAt_append hR.pos1 hR.posle, ← hR.tok]
      exact hb
    refine Pt.of (Q := fun _ _ A' => A' = ⟨A.log ++ [(TokenStream.pull t.src.stream).1], A.pos + 1, A.cps⟩)
      (wp_of_step hR' (fun t' hr => rfl)) ?_
    rintro _ t' A' e hr rfl
    have hs := next_stream e
    have hst : t'.src.stream = (TokenStream.pull t.src.stream).2 := by
      rw [hs]
      exact (idx_next_pull t.src A.log.length (sq (A.log ++ [(TokenStream.pull t.src.stream).1])) hi (by simp [sq])).2.1
    refine k t' _ ⟨h.st.move hr hadv, ⟨?_, ?_, ?_⟩⟩ (hbt _) (hbt _).le rfl
    · intro x hx
      rcases List.mem_append.1 hx with hx | hx
      · exact h.good.orig x hx
      · rw [List.mem_singleton.1 hx]
        exact TextStream.pull_orig _ hR.sinv h.good.sound
    · rw [hst]
      exact TextStream.pull_sound _ hR.sinv h.good.sound
    · rw [hst, ← h.good.text, TextStream.pull_left _ hR.sinv]
      simp
  | some i =>
    obtain ⟨hpos, hR'⟩ := step_buf hR hi (by simp [h.st.cne])
    have hadv : Adv A ⟨A.log, A.pos + 1, A.cps⟩ := ⟨⟨[], by simp⟩, Nat.le_succ _, ⟨[], by simp⟩, Clean.refl _⟩
    refine Pt.of (Q := fun _ _ A' => A' = ⟨A.log, A.pos + 1, A.cps⟩) (wp_of_step hR' (fun t' hr => rfl)) ?_
    rintro _ t' A' e hr rfl
    have hs := next_stream e
    have hst : t'.src.stream = t.src.stream := by
      rw [hs]
      exact (idx_next_buf t.src A.log.length (sq A.log) hi).2.1
    have hbt := hbt []
    rw [List.append_nil] at hbt
    exact k t' _ ⟨h.st.move hr hadv, ⟨h.good.orig, hst ▸ h.good.sound, hst ▸ h.good.text⟩⟩ hbt hbt.le rfl

theorem TSt.call {m : M σ α} {post : α → Abs → Abs → Prop} {Q : α → P σ → Abs → Prop} (h : TSt B S A0 t A)
    (hs : TSpec B S m post) (k : ∀ a t' A', TSt B S A0 t' A' → A.x ≤ A'.x → post a A A' → Q a t' A') : Pt B m t Q :=
  (hs t A h.st.r h.good h.st.cne).mono (fun a t' A' hr ⟨h1, h2, h3⟩ =>
    k a t' A' ⟨h.st.move hr h2, h1⟩ (x_le h2.log h2.pos h.st.r.posle) h3)

theorem TSt.setCheckpoint {Q : Unit → P σ → Abs → Prop} (h : TSt B S A0 t A)
    (k : ∀ t' A', TSt B S A' t' A' → Pend A0 A' → A'.x = A.x → A'.cps = A.pos :: A.cps → t'.tok = t.tok → Q () t' A') :
    Pt B (Parser.setCheckpoint : M σ Unit) t Q := by
  refine Pt.of (Q := fun _ t' A' => A' = ⟨A.log, A.pos, A.pos :: A.cps⟩ ∧ t'.tok = t.tok)
    (wp_setCheckpoint h.st.r (fun t' _ ht _ => ⟨rfl, ht⟩)) ?_
  rintro _ t' A' e hr ⟨rfl, ht⟩
  have hs : t'.src.stream = t.src.stream := by
    cases e
    exact setCheckpoint_stream _
  exact k t' _ ⟨.start hr (by simp), h.good.orig, hs ▸ h.good.sound, hs ▸ h.good.text⟩
    ⟨h.st.ne, h.st.pos1, h.st.posle, A, h.st.adv, rfl⟩ rfl rfl ht

theorem TSt.commit {A1 : Abs} {Q : Unit → P σ → Abs → Prop} (h : TSt B S A1 t A) (hp : Pend A0 A1)
    (k : ∀ t' A', TSt B S A0 t' A' → A'.x = A.x → A'.cps = A.cps.tail → t'.tok = t.tok → Q () t' A') :
    Pt B (Parser.commit : M σ Unit) t Q := by
  obtain ⟨L, p, ps, hc, ⟨L', hl', hge'⟩, -, hp0, hge, hpos, -, hlog, hcl⟩ := hp.adv h.st
  refine Pt.of (Q := fun _ t' A' => A' = ⟨A.log, A.pos, A.cps.tail⟩ ∧ t'.tok = t.tok)
    (wp_commit h.st.r (fun t' hr ht _ => ⟨rfl, ht⟩)) ?_
  rintro _ t' A' e hr ⟨rfl, ht⟩
  have hs : t'.src.stream = t.src.stream := by
    cases e
    exact commit_stream _
  refine k t' _ ⟨⟨hr, ⟨hlog, hpos, ?_, hcl⟩, hp.ne, hp.pos1, hp.posle⟩, h.good.orig, hs ▸ h.good.sound, hs ▸ h.good.text⟩
    rfl rfl ht
  cases L with
  | nil => exact ⟨L', by simp [hc, hl'], hge'⟩
  | cons x xs =>
    refine ⟨xs ++ p :: L', by simp [hc, hl'], ?_⟩
    intro q hq
    rcases List.mem_append.1 hq with hq | hq
    · exact Nat.le_trans hp0 (hge q (by simp [hq]))
    · rcases List.mem_cons.1 hq with hq | hq
      · omega
      · exact hge' q hq

/-- (A checkpoint which was left open may lie behind the one of `A1`, then `rollback` goes back to that one only.) -/
theorem TSt.rollback {A1 : Abs} {Q : Unit → P σ → Abs → Prop} (h : TSt B S A1 t A) (hp : Pend A0 A1)
    (k : ∀ t' A', TSt B S A0 t' A' → A1.x ≤ A'.x →
      (A.cps = A1.cps → A'.pos = A1.pos ∧ A'.cps = A1.cps.tail ∧ ∃ E, A'.log = A1.log ++ E) → Q () t' A') :
    Pt B (Parser.rollback : M σ Unit) t Q := by
  obtain ⟨L, p, ps, hc, ⟨L', hl', hge'⟩, hp1, hp0, hge, hpos, hlog1, hlog, hcl⟩ := hp.adv h.st
  obtain ⟨L2, hl2, hge2⟩ := h.st.adv.cps
  obtain ⟨M, hM, rfl⟩ := hp.mid
  obtain ⟨L3, hl3, hge3⟩ := hM.cps
  have hpos0 : A0.pos ≤ M.pos := hM.pos
  have hst : ∀ {t' : P σ}, (Parser.rollback : Parser.M σ Unit) t = .ok ((), t') → t'.src.stream = t.src.stream := by
    intro t' e
    unfold Parser.rollback at e
    repeat' split at e
    all_goals first | (cases e; exact rollback_stream _) | cases e
  have hg : ∀ q ps', M.pos ≤ q → Abs.x ⟨M.log, M.pos, M.pos :: M.cps⟩ ≤ Abs.x ⟨A.log, q, ps'⟩ := fun q ps' h1 =>
    x_le (A := ⟨M.log, M.pos, M.pos :: M.cps⟩) h.st.adv.log h1 h.st.posle
  have hlogM : ∃ E, A.log = M.log ++ E := h.st.adv.log
  cases L2 with
  | nil =>
    have hc2 : A.cps = M.pos :: M.cps := hl2
    refine Pt.of (Q := fun _ t' A' => A' = ⟨A.log, M.pos, M.cps⟩) (wp_rollback h.st.r hc2 (fun t' hr => rfl)) ?_
    rintro _ t' A' e hr rfl
    refine k t' _ ⟨⟨hr, ⟨hlog, hpos0, ⟨L3, hl3, hge3⟩, hcl⟩, hp.ne, hp.pos1, hp.posle⟩, h.good.orig, hst e ▸ h.good.sound,
      hst e ▸ h.good.text⟩ (hg _ _ (Nat.le_refl _)) (fun _ => ⟨rfl, rfl, hlogM⟩)
  | cons x xs =>
    have hx : M.pos ≤ x := hge2 x (by simp)
    have hc2 : A.cps = x :: (xs ++ M.pos :: M.cps) := hl2
    refine Pt.of (Q := fun _ t' A' => A' = ⟨A.log, x, xs ++ M.pos :: M.cps⟩) (wp_rollback h.st.r hc2 (fun t' hr => rfl)) ?_
    rintro _ t' A' e hr rfl
    refine k t' _ ⟨⟨hr, ⟨hlog, Nat.le_trans hpos0 hx, ⟨xs ++ M.pos :: L3, by simp [hl3], ?_⟩, hcl⟩, hp.ne, hp.pos1, hp.posle⟩,
      h.good.orig, hst e ▸ h.good.sound, hst e ▸ h.good.text⟩ (hg _ _ hx) (fun he => ?_)
    · intro q hq
      rcases List.mem_append.1 hq with hq | hq
      · exact Nat.le_trans hpos0 (hge2 q (by simp [hq]))
      · rcases List.mem_cons.1 hq with hq | hq
        · omega
        · exact hge3 q hq
    · have := congrArg List.length he
      rw [hc2] at this
      simp at this
      omega

/-- The checkpoint may stay. -/
theorem TSt.leak {A1 : Abs} (h : TSt B S A1 t A) (hp : Pend A0 A1) : TSt B S A0 t A := ⟨h.st.leak hp, h.good⟩

end Rules

/-! ### The tactic -/

/-- Proves `TSpec B S m ?post`: from the theorem `f_t` if `m` is a call of `f`, or from a hypothesis; the hypotheses of
the theorem must be in the context. -/
elab "tspec" : tactic => do
  let goal ← getMainGoal
  goal.withContext do
    let ty := (← instantiateMVars (← goal.getType)).cleanupAnnotations.headBeta
    let m := (ty.getArg! 7).headBeta
    if let some f := m.getAppFn.constName? then
      let thm := f.appendAfter "_t"
      if (← getEnv).contains thm then
        let s ← saveState
        try
          let gs ← withReducible (goal.apply (← mkConstWithFreshMVarLevels thm))
          for g in gs do
            unless ← g.isAssigned do g.assumption
          replaceMainGoal []
          return
        catch _ => s.restore
    for d in (← getLCtx) do
      unless d.isImplementationDetail do
        let s ← saveState
        try
          let gs ← withReducible (goal.apply d.toExpr)
          for g in gs do
            unless ← g.isAssigned do g.assumption
          replaceMainGoal []
          return
        catch _ => s.restore
    throwError "no specification"

/-- One step of a production. -/
elab "tp1" : tactic => withMainContext do
  let ty := (← instantiateMVars (← getMainTarget)).cleanupAnnotations.headBeta
  let run (s : TacticM (TSyntax `tactic)) : TacticM Unit := do
    Tactic.withoutRecover (evalTactic (← s))
  if ty.isAppOfArity ``And 2 && (ty.getArg! 0).isAppOf ``Genuine then
    run `(tactic| refine TSt.fin (by assumption) ?_)
  else if ty.isAppOfArity ``Pt 8 then
    let m := (ty.getArg! 5).cleanupAnnotations.headBeta
    if m.isLet then run `(tactic| dsimp only) else
    match m.getAppFn.constName? with
    | some ``Bind.bind => run `(tactic| with_reducible refine Pt.bind ?_)
    | some ``Pure.pure => run `(tactic| with_reducible refine TSt.pure (by assumption) ?_)
    | some ``tok => run `(tactic| with_reducible refine TSt.tok (by assumption) (fun _ => ?_))
    | some ``hasErrors => run `(tactic| with_reducible refine TSt.hasErrors (by assumption) (fun _ => ?_))
    | some ``startOfLine => run `(tactic| with_reducible refine TSt.startOfLine (by assumption) (fun _ => ?_))
    | some ``next => run `(tactic| first
      | with_reducible refine TSt.next (by assumption) (break_ok (by assumption)) (fun _ _ _ _ _ _ => ?_)
      | with_reducible refine TSt.next (by assumption) (by wpt) (fun _ _ _ _ _ _ => ?_))
    | some ``setCheckpoint => run `(tactic| with_reducible refine TSt.setCheckpoint (by assumption) (fun _ _ _ _ _ _ _ => ?_))
    | some ``commit => run `(tactic| with_reducible refine TSt.commit (by assumption) (by assumption) (fun _ _ _ _ _ _ => ?_))
    | some ``rollback => run `(tactic| with_reducible refine TSt.rollback (by assumption) (by assumption) (fun _ _ _ _ _ => ?_))
    | some ``appendError => run `(tactic| with_reducible refine TSt.appendError (by assumption) (fun _ _ _ => ?_))
    | some ``mark => run `(tactic| with_reducible refine TSt.mark (by assumption) (fun _ _ _ _ => ?_))
    | some ``setRaw => run `(tactic| with_reducible refine TSt.setRaw (by assumption) (fun _ _ _ => ?_))
    | some ``getBuf => run `(tactic| with_reducible refine TSt.getBuf (by assumption) (fun _ _ _ => ?_))
    | some ``resetAndPut => run `(tactic| with_reducible refine TSt.resetAndPut (by assumption) (fun _ _ _ => ?_))
    | some ``truncate => run `(tactic| with_reducible refine TSt.truncate (by assumption) ?_)
    | some ``attempt => run `(tactic| (unfold attempt; try dsimp only [id]))
    | some ``ite => run `(tactic| first
      | with_reducible refine Pt.iteNt (by assumption) ?_
      | with_reducible refine Pt.iteNf (by assumption) ?_
      | with_reducible refine Pt.iteBt (by assumption) ?_
      | with_reducible refine Pt.iteBf (by assumption) ?_
      | with_reducible refine Pt.ite_pos (by assumption) ?_
      | with_reducible refine Pt.ite_neg (by assumption) ?_
      | with_reducible refine Pt.iteN (fun _ => ?_) (fun _ => ?_)
      | with_reducible refine Pt.iteB (fun _ => ?_) (fun _ => ?_)
      | with_reducible refine Pt.iteNe (fun _ => ?_) (fun _ => ?_)
      | with_reducible refine Pt.ite (fun _ => ?_) (fun _ => ?_))
    | _ => run `(tactic| first
      | with_reducible refine TSt.call (by assumption) (by tspec) (fun _ _ _ _ _ _ => ?_)
      | split)
  else throwError "no step"

/-- All steps. -/
macro "tp" : tactic => `(tactic| repeat' tp1)

/-! ### Loops -/

section Loops

variable {B : Nat} {S : List Char}

/-- A property of values which is kept as the text grows. -/
theorem loop_t {f : Nat} {body : α → M σ (Bool × α)} (Inv : Abs → Abs → α → α → Prop)
    (hb : ∀ x, TSpec B S (body x) (fun r A A' => Inv A A' x r.2))
    (ht : ∀ A A' A'' x y z, A.x ≤ A'.x → A'.x ≤ A''.x → Inv A A' x y → Inv A' A'' y z → Inv A A'' x z) :
    ∀ (x : α), TSpec B S (loop f body x) (fun y A A' => Inv A A' x y) := by
  induction f with
  | zero =>
    intro x t A _ _ _ a t' e
    cases e
  | succ f ih =>
    intro x
    refine .intro (fun t A hst => ?_)
    rw [loop]
    refine Pt.bind (hst.call (hb x) ?_)
    intro r t' A' hst' hle hp
    refine Pt.ite (fun hc => ?_) (fun hc => ?_)
    · refine hst'.call (ih r.2) ?_
      intro a t'' A'' hst'' hle' hp'
      exact hst''.fin (ht _ _ _ _ _ _ hle hle' hp hp')
    · exact hst'.pure (hst'.fin hp)

theorem tries_t {f : Nat} {body : α → M σ (Bool × α)} (Inv : Abs → Abs → α → α → Prop)
    (hb : ∀ x, TSpec B S (attempt Prod.fst (body x)) (fun r A A' => Inv A A' x r.2))
    (ht : ∀ A A' A'' x y z, A.x ≤ A'.x → A'.x ≤ A''.x → Inv A A' x y → Inv A' A'' y z → Inv A A'' x z) (x : α) :
    TSpec B S (tries f body x) (fun y A A' => Inv A A' x y) :=
  loop_t Inv hb ht x

end Loops

end Verif.Parser
