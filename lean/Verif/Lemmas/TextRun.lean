import Verif.Lemmas.LexQuote
import Verif.Spec.BlockText

/-!
The tokens of texts in block style: lines, comments, names and scalars.
-/

set_option linter.unusedSimpArgs false
set_option linter.unusedSectionVars false

namespace Verif.Parser

open Verif.Token Verif.Lexer Verif.Ast Verif.PlainTree
open Verif.BlockText (sp Remark Name nameChar tidy absence)

variable {b ty : TokType} {text r w t u v g : List Char} {l : Lexer} {c x : Char} {cx : Ctx} {d z : Bool} {s : Lexer} {p q j i n : Nat}
variable {e : Node}

/-! ### Comments -/

/-- A character inside of a comment. -/
def Dim (c : Char) : Prop := c ∉ ['\n', '\r', '﻿']

theorem emits_blankC (h : c = ' ' ∨ c = '\t') : ∃ ty, Emits commentCtx b (c :: r) ty [c] commentCtx r ∧ (ty = .space ∨ ty = .tab) := by
  rcases h with rfl | rfl
  · exact ⟨.space, fun pos => ⟨_, _, rfl, rfl, rfl⟩, .inl rfl⟩
  · exact ⟨.tab, fun pos => ⟨_, _, rfl, rfl, rfl⟩, .inr rfl⟩

theorem passes_dim (h : Dim c) (h1 : c ≠ ' ') (h2 : c ≠ '\t') : Passes commentCtx b c r := by
  intro pos
  show baseMatching _ _ = _
  simp only [Dim, List.mem_cons, List.not_mem_nil, or_false, not_or] at h
  unfold baseMatching
  split <;> simp_all

theorem runs_dim : ∀ {w : List Char}, (∀ c ∈ w, Dim c ∧ c ≠ ' ' ∧ c ≠ '\t') → Runs commentCtx w text
  | [], _ => trivial
  | c :: _, h => ⟨passes_dim (h c (by simp)).1 (h c (by simp)).2.1 (h c (by simp)).2.2, runs_dim (fun e he => h e (by simp [he]))⟩

theorem split_blank : ∀ (t : List Char), ∃ w r, t = w ++ r ∧ (∀ c ∈ w, c ≠ ' ' ∧ c ≠ '\t') ∧
    (r = [] ∨ ∃ c r', r = c :: r' ∧ (c = ' ' ∨ c = '\t'))
  | [] => ⟨[], [], rfl, by simp, .inl rfl⟩
  | c :: t => by
    by_cases h : c = ' ' ∨ c = '\t'
    · exact ⟨[], c :: t, rfl, by simp, .inr ⟨c, t, rfl, h⟩⟩
    · obtain ⟨w, r, h1, h2, h3⟩ := split_blank t
      refine ⟨c :: w, r, by simp [h1], ?_, h3⟩
      intro e he
      rcases List.mem_cons.1 he with rfl | he
      · simpa using h
      · exact h2 e he

/-- The end of a line. -/
inductive Brink : List Char → Prop
  | line {r : List Char} : Brink ('\n' :: r)
  | cr {r : List Char} : Brink ('\r' :: r)
  | eof : Brink []

theorem Brink.emits (h : Brink text) (hc : Loose cx) : ∃ ty o cx' r', Emits cx b text ty o cx' r' := by
  cases h with
  | line => exact ⟨_, _, _, _, emits_line hc⟩
  | @cr r => obtain ⟨o, r', h⟩ := emits_return (b := b) (r := r) hc; exact ⟨_, _, _, _, h⟩
  | eof => exact ⟨_, _, _, _, emits_eof hc⟩

theorem Front.remark (hb : Brink text) : ∀ (n : Nat) {u : List Char} {p : Nat} {b : TokType}, u.length ≤ n → (∀ c ∈ u, Dim c) →
    Front s commentCtx p b (u ++ text) → ∃ c b', p ≤ c ∧ (∀ i, p ≤ i → i < c → isNonBreak (toks s i) = true ∧ Calm (toks s) i ∧ Free (toks s i)) ∧
      Front s commentCtx c b' text
  | 0, u, p, b, hn, _, h => by
    obtain rfl : u = [] := List.length_eq_zero_iff.1 (by omega)
    exact ⟨p, b, Nat.le_refl _, fun i h1 h2 => by omega, h⟩
  | n + 1, u, p, b, hn, hu, h => by
    obtain ⟨w, v, rfl, hw, hv⟩ := split_blank u
    cases w with
    | nil =>
      rcases hv with rfl | ⟨c, v, rfl, hc⟩
      · exact ⟨p, b, Nat.le_refl _, fun i h1 h2 => by omega, h⟩
      · obtain ⟨ty, he, hty⟩ := emits_blankC (b := b) (r := v ++ text) hc
        obtain ⟨h1, -, h3⟩ := h.emit he (by rcases hty with rfl | rfl <;> simp [Plainly])
        obtain ⟨c', b', g1, g2, g3⟩ := Front.remark hb n (by simp at hn; omega) (fun e he => hu e (by simp [he])) h3
        refine ⟨c', b', by omega, fun i h4 h5 => ?_, g3⟩
        by_cases hi : i = p
        · subst hi
          exact ⟨by rcases hty with rfl | rfl <;> simp [isNonBreak, h1, TokType.isNonBreak], h3.calm, by rcases hty with rfl | rfl <;> exact .of h1⟩
        · exact g2 i (by omega) h5
    | cons c w =>
      have hem : ∃ ty o cx' r', Emits commentCtx .string (v ++ text) ty o cx' r' := by
        rcases hv with rfl | ⟨c, v, rfl, hc⟩
        · exact hb.emits .comment
        · obtain ⟨ty, he, hty⟩ := emits_blankC (b := .string) (r := v ++ text) hc
          exact ⟨_, _, _, _, he⟩
      obtain ⟨ty, o, cx', r', he⟩ := hem
      have hd : ∀ e ∈ c :: w, Dim e ∧ e ≠ ' ' ∧ e ≠ '\t' := fun e he => ⟨hu e (by simp at he ⊢; tauto), hw e he⟩
      obtain ⟨h1, h2, h3⟩ := Front.string (w := w) (text := v ++ text) (by simpa using h)
        (passes_dim (hd c (by simp)).1 (hd c (by simp)).2.1 (hd c (by simp)).2.2) (runs_dim (fun e he => hd e (by simp [he]))) he
      obtain ⟨c', b', g1, g2, g3⟩ := Front.remark hb n (by simp at hn; omega) (fun e he => hu e (by simp [he])) h3
      refine ⟨c', b', by omega, fun i h4 h5 => ?_, g3⟩
      by_cases hi : i = p
      · subst hi
        exact ⟨by simp [isNonBreak, h1, TokType.isNonBreak], h3.calm, .of h1⟩
      · exact g2 i (by omega) h5

/-- A comment or nothing, up to the end of the line. -/
theorem Front.tail (hb : Brink text) (hu : BlockText.Tail u) (hc : Lax cx) (hp : u ≠ [] → cx = newCtx ∧ b.mayPrecedeWord = true)
    (h : Front s cx p b (u ++ text)) : ∃ c cx' b', Tail (toks s) p c ∧ Front s cx' c b' text ∧ Loose cx' ∧ (u = [] → c = p) := by
  have hbreak : ∀ {cx b c}, Loose cx → Front s cx c b text → isBreakOrEOF (toks s c) = true := by
    intro cx b c hc h
    cases hb with
    | line => simp [isBreakOrEOF, (h.emit (emits_line hc) (by simp [Plainly])).1]
    | @cr r =>
      obtain ⟨o, r', he⟩ := emits_return (b := b) (r := r) hc
      simp [isBreakOrEOF, (h.emit he (by simp [Plainly])).1]
    | eof => simp [isBreakOrEOF, (h.emit (emits_eof hc) (by simp [Plainly])).1]
  cases hu with
  | none => exact ⟨p, cx, b, .none (hbreak hc.loose h), h, hc.loose, fun _ => rfl⟩
  | remark hr =>
    obtain ⟨rfl, hm⟩ := hp (by simp)
    obtain ⟨h1, -, h3⟩ := h.emit (emits_sharp hm) (by simp [Plainly])
    obtain ⟨c, b', g1, g2, g3⟩ := Front.remark hb _ (Nat.le_refl _) hr h3
    exact ⟨c, _, b', .text h1 h3.calm (by omega) (fun i h4 h5 => g2 i (by omega) h5) (hbreak .comment g3), g3, .comment, by simp⟩

/-! ### Lines -/

/-- A character which begins content. -/
def Visible (c : Char) : Prop := c ∉ [' ', '\t', '\n', '\r', '#', '﻿']

theorem emitLoop_str : ∀ (f : Nat) (l : Lexer) (st : Pos) (acc : List Char) (o : Tok × Lexer),
    emitLoop f l (some (st, acc)) = some o → o.1.type = .string
  | 0, l, st, acc, o, h => by simp [emitLoop] at h
  | f + 1, l, st, acc, o, h => by
    unfold emitLoop at h
    simp only at h
    split at h
    · injection h with h; subst h; rfl
    · split at h
      · cases h
      · exact emitLoop_str f _ _ _ o h

theorem block_begins (hc : Visible c) {l l' : Lexer} {t : Tok} (h : blockMatching l (some c) = (some t, l')) : Begins t := by
  simp only [Visible, List.mem_cons, List.not_mem_nil, or_false, not_or] at hc
  unfold blockMatching baseMatching at h
  simp only [single, singleSwitch, triple] at h
  unfold Begins
  split at h <;> (try split at h) <;> (try split at h) <;> simp_all <;> (obtain ⟨h1, h2⟩ := h; subst h1; simp)

theorem Front.begins (h : Front s newCtx p b (c :: r)) (hc : Visible c) : Begins (toks s p) := by
  obtain ⟨l0, h0, hl⟩ := h.lx
  rw [toks_pos h.pos, hl]
  obtain ⟨rest, ctx, pos, behind, prepared⟩ := l0
  obtain ⟨e1, e2, e3, e4⟩ := h0
  simp only at e1 e2 e3 e4
  subst e1 e2 e3 e4
  obtain ⟨tok, l', q, text', h1, h2, -⟩ := next_spec _ _ pos (c :: r) (by exact ⟨rfl, rfl⟩ : Ready ⟨c :: r, newCtx, pos, behind, none⟩ pos (c :: r)) (Nat.le_refl _)
  have e : lexNext ⟨c :: r, newCtx, pos, behind, none⟩ = (tok, l') := by
    unfold lexNext
    rw [h1]
  rw [e]
  simp only [nextFuel, emitToken] at h1
  unfold emitLoop at h1
  simp only [raNext] at h1
  rw [match_block rfl] at h1
  cases hm : blockMatching ⟨r, newCtx, { pos with col := pos.col + 1 }, behind, none⟩ (some c) with
  | mk a l2 =>
    rw [hm] at h1
    cases a with
    | some t =>
      simp only [Option.some.injEq, Prod.mk.injEq] at h1
      rw [← h1.1]
      exact block_begins hc hm
    | none =>
      have : tok.type = .string := emitLoop_str _ _ _ _ _ h1
      simp [Begins, this]

/-- What follows is the end, or a line. -/
inductive After (s : Lexer) (q : Nat) : List Char → Prop
  | done : 1 ≤ q → Done (toks s) q → (toks s (q + 1)).type = .eof → (∀ i, Fit (toks s).tok i) → After s q []
  | stop : 1 ≤ q → (toks s q).type = .eof → solW (toks s) q = true → (toks s (q + 1)).type = .eof → (∀ i, Fit (toks s).tok i) →
      After s q []
  | line {text : List Char} {b : TokType} : text ≠ [] → b.mayPrecedeWord = true → Front s newCtx q b text → solW (toks s) q = true →
      After s q text

theorem After.pos (h : After s q text) : 1 ≤ q := by
  cases h with
  | done h => exact h
  | stop h => exact h
  | line _ _ h => exact h.pos

/-- The end, or a line with content at a column less than `k`. -/
def LineStart (k : Nat) (text : List Char) : Prop := text = [] ∨ ∃ j c r, text = sp j ++ c :: r ∧ Visible c ∧ j < k

theorem LineStart.mono {k k' : Nat} (h : LineStart k text) (hk : k ≤ k') : LineStart k' text := by
  rcases h with h | ⟨j, c, r, h1, h2, h3⟩
  · exact .inl h
  · exact .inr ⟨j, c, r, h1, h2, by omega⟩

theorem Front.lineSp (h : Front s newCtx p b (sp n ++ c :: r)) (hc : Visible c) : Sp (toks s) p n ∧ Begins (toks s (p + n)) ∧
    Front s newCtx (p + n) (if n = 0 then b else .space) (c :: r) := by
  obtain ⟨h1, h2⟩ := h.spaces .block
  simp only [ite_self] at h2
  have h3 := h2.begins hc
  exact ⟨⟨fun i hi => (h1 i hi).1, h3.1, h3.2.1⟩, h3, h2⟩

theorem After.enter (h : After s q (sp n ++ c :: r)) (hc : Visible c) : Line (toks s) q n ∧
    ∃ b, b.mayPrecedeWord = true ∧ Front s newCtx (q + n) b (c :: r) := by
  generalize hx : sp n ++ c :: r = x at h
  cases h with
  | done => simp at hx
  | stop => simp at hx
  | line h1 h2 h3 h4 =>
    subst hx
    obtain ⟨g1, g2, g3⟩ := h3.lineSp hc
    exact ⟨⟨g1, g2, h4⟩, _, by split; exact h2; rfl, g3⟩

theorem Front.after (h : Front s newCtx p b r) {k : Nat} (hr : LineStart k r) (hb : b.mayPrecedeWord = true) (hs : solW (toks s) p = true) :
    ∃ q, Gap (toks s) p q ∧ After s q r := by
  rcases hr with rfl | ⟨j, c, r, rfl, hc, -⟩
  · obtain ⟨h1, h2⟩ := h.ends .block
    have h0 : (toks s p).type = .eof := h1 0
    have hp := h.pos
    refine ⟨p + 1, .last (j := 0) (.zero (by simp [h0]) (by simp [h0])) (.none (by simp [isBreakOrEOF, h0])) h0 (h1 1),
      .done (by omega) ⟨h1 1, solW_eof hp h0⟩ (h1 2) h2⟩
  · obtain ⟨g1, g2, g3⟩ := h.lineSp hc
    exact ⟨p, .here g1 g2, .line (by simp) hb h hs⟩

theorem emits_break (hc : Loose cx) (h : BlockText.Break u r) : ∃ o, Emits cx b (u ++ r) .lineBreak o newCtx r := by
  cases h with
  | lf => exact ⟨_, emits_line hc⟩
  | crlf => exact ⟨_, emits_crlf hc⟩
  | cr h => exact ⟨_, emits_cr hc h⟩

theorem break_brink (h : BlockText.Break u g) : Brink (u ++ r) := by
  cases h with
  | lf => exact .line
  | crlf => exact .cr
  | cr => exact .cr

theorem break_append (h : BlockText.Break u g) (hr : r.head? ≠ some '\n') : BlockText.Break u (g ++ r) := by
  cases h with
  | lf => exact .lf
  | crlf => exact .crlf
  | cr h =>
    refine .cr ?_
    cases g with
    | nil => exact hr
    | cons => exact h

theorem lineStart_head {k : Nat} (h : LineStart k r) : r.head? ≠ some '\n' := by
  rcases h with rfl | ⟨j, c, r, rfl, hc, -⟩
  · simp
  · cases j with
    | zero => simpa [sp] using (fun e => hc (by simp [e]) : c ≠ '\n')
    | succ j => simp [sp, List.replicate_succ]

/-- The end of a line after `Front.tail`. -/
theorem Front.break (hc : Loose cx) (hu : BlockText.Break u r) (h : Front s cx p b (u ++ r)) :
    (toks s p).type = .lineBreak ∧ solW (toks s) (p + 1) = true ∧ Front s newCtx (p + 1) .lineBreak r := by
  obtain ⟨o, he⟩ := emits_break (b := b) hc hu
  obtain ⟨h1, -, h3⟩ := h.emit he (by simp [Plainly])
  exact ⟨h1, solW_break h.pos h1, h3⟩

theorem Front.finish (hc : Loose cx) (h : Front s cx p b []) :
    (toks s p).type = .eof ∧ (toks s (p + 1)).type = .eof ∧ After s (p + 1) [] := by
  obtain ⟨h1, h2⟩ := h.ends hc
  have hp := h.pos
  exact ⟨h1 0, h1 1, .done (by omega) ⟨h1 1, solW_eof hp (h1 0)⟩ (h1 2) h2⟩

theorem tail_sp {k : Nat} (h : Tail (toks s) p k) : (toks s p).type ≠ .space ∧ (toks s p).type ≠ .tab := by
  cases h with
  | none h => simp only [isBreakOrEOF, Bool.or_eq_true, decide_eq_true_eq] at h; rcases h with h | h <;> simp [h]
  | text h => simp [h]

/-- Spaces, a comment or nothing. -/
theorem Front.rest (hb : Brink text) (hu : BlockText.Tail u) (hc : Lax cx) (hi : 0 < i ∨ u = [] ∨ cx = newCtx ∧ b.mayPrecedeWord = true)
    (h : Front s cx p b (sp i ++ (u ++ text))) : ∃ c cx' b', Sp (toks s) p i ∧ Tail (toks s) (p + i) c ∧ Front s cx' c b' text ∧
      Loose cx' ∧ (u = [] → c = p + i) := by
  obtain ⟨h1, h2⟩ := h.spaces hc
  obtain ⟨c, cx', b', g1, g2, g3, g4⟩ := Front.tail hb hu (by split; exact hc; exact .block) (by
    intro hne
    by_cases h0 : i = 0
    · simp only [h0, if_true]
      rcases hi with hi | hi | hi
      · omega
      · exact absurd hi hne
      · exact hi
    · simp [h0, TokType.mayPrecedeWord]) h2
  have := tail_sp g1
  exact ⟨c, cx', b', ⟨fun i hi => (h1 i hi).1, this.1, this.2⟩, g1, g2, g3, g4⟩

theorem Front.gap (hg : BlockText.Gap z g) (hz : z = true → r = []) {k : Nat} (hr : LineStart k r) : ∀ {p : Nat} {b : TokType},
    b.mayPrecedeWord = true → solW (toks s) p = true → Front s newCtx p b (g ++ r) → ∃ q, Gap (toks s) p q ∧ After s q r := by
  induction hg with
  | nil => intro p b hb hs h; exact Front.after h hr hb hs
  | @brk z i u a g hu ha hg ih =>
    intro p b hb hs h
    obtain ⟨c, cx', b', g1, g2, g3, g4, -⟩ := Front.rest (text := a ++ (g ++ r)) (break_brink ha) hu .block (.inr (.inr ⟨rfl, hb⟩))
      (by simpa using h)
    obtain ⟨k1, k2, k3⟩ := g3.break g4 (break_append ha (lineStart_head hr))
    obtain ⟨q, m1, m2⟩ := ih hz rfl k2 k3
    exact ⟨q, .line g1 g2 k1 m1, m2⟩
  | @last i u hu =>
    intro p b hb hs h
    obtain rfl := hz rfl
    obtain ⟨c, cx', b', g1, g2, g3, g4, -⟩ := Front.rest (text := []) .eof hu .block (.inr (.inr ⟨rfl, hb⟩)) (by simpa using h)
    obtain ⟨k1, k2, k3⟩ := g3.finish g4
    exact ⟨_, .last g1 g2 k1 k2, k3⟩

theorem Front.eol (hu : BlockText.Eol z u) (hz : z = true → r = []) {k : Nat} (hr : LineStart k r) (hc : Lax cx) (h : Front s cx p b (u ++ r)) :
    ∃ q, Eol (toks s) p q ∧ After s q r := by
  cases hu with
  | @brk _ i u a g hu hi ha hg =>
    obtain ⟨c, cx', b', g1, g2, g3, g4, g5⟩ := Front.rest (text := a ++ (g ++ r)) (break_brink ha) hu hc
      (by rcases hi with hi | hi; exact .inl hi; exact .inr (.inl hi)) (by simpa using h)
    obtain ⟨k1, k2, k3⟩ := g3.break g4 (break_append ha (lineStart_head hr))
    obtain ⟨q, m1, m2⟩ := k3.gap hg hz hr rfl k2
    exact ⟨q, .line g1 g2 (by rcases hi with hi | hi; exact .inl hi; exact .inr (g5 hi)) k1 m1, m2⟩
  | @last i u hu hi =>
    obtain rfl := hz rfl
    obtain ⟨c, cx', b', g1, g2, g3, g4, g5⟩ := Front.rest (text := []) .eof hu hc
      (by rcases hi with hi | hi; exact .inl hi; exact .inr (.inl hi)) (by simpa using h)
    obtain ⟨k1, k2, k3⟩ := g3.finish g4
    exact ⟨_, .last g1 g2 (by rcases hi with hi | hi; exact .inl hi; exact .inr (g5 hi)) k1 k2, k3⟩

theorem lineStart_sp (hc : Visible c) : LineStart (n + 1) (sp n ++ c :: r) := .inr ⟨n, c, r, rfl, hc, by omega⟩

theorem Front.sep (hu : BlockText.Sep n u) (hv : Visible c) (hc : Lax cx) (hs : solW (toks s) p = false)
    (h : Front s cx p b (u ++ c :: r)) : ∃ q b', b'.mayPrecedeWord = true ∧ Sep (toks s) n p q ∧ Front s newCtx q b' (c :: r) := by
  cases hu with
  | @mid i =>
    obtain ⟨h1, h2⟩ := h.spaces hc
    simp only [Nat.add_eq_zero_iff, Nat.one_ne_zero, and_false, if_false] at h2
    have h3 := h2.begins hv
    exact ⟨_, _, rfl, .mid h.pos ⟨fun i hi => (h1 i hi).1, h3.1, h3.2.1⟩ hs h3, h2⟩
  | @lines u m hu hm =>
    obtain ⟨q, g1, g2⟩ := Front.eol (r := sp m ++ c :: r) hu (by simp) (lineStart_sp hv) hc (by simpa using h)
    obtain ⟨k1, b', k2, k3⟩ := g2.enter hv
    exact ⟨_, b', k2, .lines h.pos g1 k1 hm, k3⟩

/-! ### Names -/

theorem nameChar_plain (h : nameChar c = true) : c ∉ forbidden ∧ c ∉ indicators ∧ c ≠ ':' ∧ c ≠ '.' ∧ c ≠ '?' := by
  refine ⟨?_, ?_, ?_, ?_, ?_⟩
  · intro hm
    simp only [forbidden, List.mem_cons, List.not_mem_nil, or_false] at hm
    rcases hm with rfl | rfl | rfl | rfl | rfl | rfl | rfl | rfl | rfl | rfl | rfl | rfl | rfl | rfl <;> simp [nameChar] at h <;> revert h <;> decide
  · intro hm
    simp only [indicators, List.mem_cons, List.not_mem_nil, or_false] at hm
    rcases hm with rfl | rfl | rfl | rfl | rfl <;> simp [nameChar] at h <;> revert h <;> decide
  all_goals (rintro rfl; revert h; decide)

theorem Name.word (h : Name w) : PlainTree.Word w := by
  obtain ⟨c, r, rfl, hc⟩ := h.first
  refine ⟨fun e he => (nameChar_plain (h.chars e he)).1, ⟨c, r, rfl, (nameChar_plain (h.chars c (by simp))).2.1⟩, ?_, ?_⟩
  · intro hl
    have := List.mem_of_getLast? hl
    exact (nameChar_plain (h.chars _ this)).2.2.1 rfl
  · intro hm
    have h1 := nameChar_plain (h.chars c (by simp))
    simp only [markers, List.mem_cons, List.not_mem_nil, or_false, List.cons.injEq] at hm
    rcases hm with hm | hm | hm | hm
    · exact hc hm.1
    · exact h1.2.2.2.2 hm.1
    · exact hc hm.1
    · exact h1.2.2.2.1 hm.1

theorem name_anchor {k : Tok} (h : Name w) (h1 : k.type = .string) (h2 : k.origin = w) : stringIn .anchor k = true := by
  simp only [stringIn, h1, h2, YamlChar.conformsCharSet, YamlChar.isAnchorString, YamlChar.isPlainSafeString, decide_true, Bool.true_and,
    List.all_eq_true]
  intro c hc
  have := (nameChar_plain (h.chars c hc)).1
  simp only [forbidden, List.mem_cons, List.not_mem_nil, or_false, not_or] at this
  simp [YamlChar.isFlowIndicatorChar, this]

end Verif.Parser
