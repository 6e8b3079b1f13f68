import Verif.Lemmas.TextRun

/-!
The tokens of the lines of literal scalars.
-/

set_option linter.unusedSimpArgs false
set_option linter.unusedSectionVars false

namespace Verif.Parser

open Verif.Token Verif.Lexer Verif.Ast Verif.PlainTree
open Verif.BlockText (sp LitLine FoldLine)

variable {b ty : TokType} {text r r' w t u v g o : List Char} {l l' : Lexer} {c x : Char} {cx cx' : Ctx} {s : Lexer} {p q j i n m : Nat}
variable {st : Phase} {z fo : Bool}

/-! ### Dull contexts: only white space and the ends of lines are tokens of their own -/

/-- A context which ends with the line. -/
def Short (cx : Ctx) : Prop := cx.escaped = false ∧ ∀ x ∈ cx.stack, x = .comment ∨ x = .multilineBlockStart ∨ x = .tag

/-- In such a context nothing but white space and the end of the line is special. -/
def Drab (cx : Ctx) : Prop := (cx.raw = true ∨ ∃ st, cx.stack = .comment :: st) ∧ Short cx

/-- What a token tells about its text. -/
structure Fair (t : Tok) : Prop where
  flat : NoBracket t
  brk : t.type = .lineBreak → t.origin = ['\n'] ∨ t.origin.head? = some '\r'
  bom : t.type = .bom → t.origin.head? = some '﻿'
  white : t.type = .space ∨ t.type = .tab → t.origin.head? = some ' ' ∨ t.origin.head? = some '\t'
  clean : t.type ≠ .lineBreak → '\n' ∉ t.origin

/-- The tokenizer in a dull context; a token may be prepared. -/
inductive Glum : Lexer → Prop
  | idle {l : Lexer} : Drab l.ctx → l.prepared = none → Glum l
  | ready {l : Lexer} {t : Tok} : l.prepared = some t → Fair t → (t.type = .lineBreak → l.ctx = ⟨[], false, l.ctx.raw⟩) →
      (t.type ≠ .lineBreak → Drab l.ctx) → Glum l

theorem match_drab (h : Drab l.ctx) (r : Option Char) : matchSpecialToken l r = baseMatching l r := by
  unfold matchSpecialToken
  rcases h.1 with h1 | ⟨st, h1⟩
  · simp [h1, rawMatching]
  · by_cases h2 : l.ctx.raw = true
    · simp [h2, rawMatching]
    · simp [h2, Ctx.currentType, h1, commentMatching]

theorem popLine_short : ∀ {st : List CtxType}, (∀ x ∈ st, x = .comment ∨ x = .multilineBlockStart ∨ x = .tag) → Ctx.popLine st = []
  | [], _ => rfl
  | x :: st, h => by
    have h1 := popLine_short (st := st) (fun y hy => h y (by simp [hy]))
    rcases h x (by simp) with rfl | rfl | rfl <;> exact h1

theorem popTags_mem : ∀ {st : List CtxType} {x : CtxType}, x ∈ Ctx.popTags st → x ∈ st
  | [], _, h => h
  | y :: st, x, h => by
    cases y <;> simp only [Ctx.popTags] at h <;> first | exact h | exact List.mem_cons_of_mem _ (popTags_mem h)

theorem Short.tags (h : Short cx) : Short cx.whitespaceRevertContext := ⟨h.1, fun x hx => h.2 x (popTags_mem hx)⟩

theorem Drab.tags (h : Drab cx) : Drab cx.whitespaceRevertContext := by
  refine ⟨?_, h.2.tags⟩
  rcases h.1 with h1 | ⟨st, h1⟩
  · exact .inl h1
  · exact .inr ⟨st, by simp [Ctx.whitespaceRevertContext, h1, Ctx.popTags]⟩

theorem Short.line (h : Short cx) : cx.lineBreakRevertContext = ⟨[], false, cx.raw⟩ := by
  obtain ⟨st, e, rw⟩ := cx
  simp only [Short] at h
  obtain ⟨rfl, h⟩ := h
  simp [Ctx.lineBreakRevertContext, popLine_short h]

/-- What `baseMatching` does in a short context. -/
theorem base_fair (h : Short l.ctx) {r : Option Char} {a : Option Tok} (he : baseMatching l r = (a, l')) :
    l'.prepared = l.prepared ∧ l'.ctx.raw = l.ctx.raw ∧ (a = none → l' = l ∧ r ≠ some '\n' ∧ r ≠ none) ∧
    ∀ t, a = some t → Fair t ∧ (t.type = .lineBreak → l'.ctx = ⟨[], false, l.ctx.raw⟩) ∧
      (t.type ≠ .lineBreak → Short l'.ctx ∧ (Drab l.ctx → Drab l'.ctx)) := by
  have hl := h.line
  unfold baseMatching at he
  split at he
  all_goals (try simp only [single] at he)
  case h_3 =>
    split at he
    all_goals
      injection he with he1 he2
      subst he1 he2
      refine ⟨rfl, rfl, by simp, fun t ht => ?_⟩
      injection ht with ht
      subst ht
      exact ⟨⟨by simp [NoBracket], by simp, by simp, by simp, by simp⟩, fun _ => hl, by simp⟩
  case h_4 =>
    injection he with he1 he2
    subst he1 he2
    refine ⟨rfl, rfl, by simp, fun t ht => ?_⟩
    injection ht with ht
    subst ht
    exact ⟨⟨by simp [NoBracket], by simp, by simp, by simp, by simp⟩, fun _ => hl, by simp⟩
  case h_7 =>
    injection he with he1 he2
    subst he1 he2
    exact ⟨rfl, rfl, fun _ => ⟨rfl, by simp_all, by simp⟩, by simp⟩
  all_goals
    injection he with he1 he2
    subst he1 he2
    refine ⟨rfl, rfl, by simp, fun t ht => ?_⟩
    injection ht with ht
    subst ht
    exact ⟨⟨by simp [NoBracket], by simp, by simp, by simp, by simp⟩, by simp, fun _ => ⟨by first | exact h | exact h.tags, fun h1 => by first | exact h1 | exact h1.tags⟩⟩

theorem glum_loop : ∀ (f : Nat) {l l' : Lexer} {str : Option (Pos × List Char)} {t : Tok}, Drab l.ctx → l.prepared = none →
    (∀ st rs, str = some (st, rs) → '\n' ∉ rs) → emitLoop f l str = some (t, l') →
    Fair t ∧ l'.ctx.raw = l.ctx.raw ∧ (t.type = .lineBreak → l'.ctx = ⟨[], false, l.ctx.raw⟩ ∧ l'.prepared = none) ∧
      (t.type ≠ .lineBreak → Glum l')
  | 0, l, l', str, t, _, _, _, h => by simp [emitLoop] at h
  | f + 1, l, l', str, t, hd, hp, hs, h => by
    unfold emitLoop at h
    simp only at h
    rw [match_drab (by exact hd)] at h
    cases hm : baseMatching { l with rest := (raNext l.rest).2, pos := { l.pos with col := l.pos.col + 1 } } (raNext l.rest).1 with
    | mk a l2 =>
      rw [hm] at h
      obtain ⟨g1, g2, g3, g4⟩ := base_fair (by exact hd.2) hm
      cases a with
      | some sp =>
        obtain ⟨k1, k2, k3⟩ := g4 sp rfl
        cases str with
        | none =>
          simp only [Option.some.injEq, Prod.mk.injEq] at h
          obtain ⟨rfl, rfl⟩ := h
          refine ⟨k1, g2, fun ht => ⟨k2 ht, ?_⟩, fun ht => .idle ((k3 ht).2 hd) ?_⟩ <;> (rw [← hp]; exact g1)
        | some x =>
          obtain ⟨st, rs⟩ := x
          simp only [Option.some.injEq, Prod.mk.injEq] at h
          obtain ⟨rfl, rfl⟩ := h
          refine ⟨⟨by simp [NoBracket], by simp, by simp, by simp, fun _ => hs _ _ rfl⟩, g2, by simp, fun _ => ?_⟩
          exact .ready rfl k1 (fun ht => by rw [show ({ l2 with prepared := some sp } : Lexer).ctx = l2.ctx from rfl, g2]; exact k2 ht)
            (fun ht => (k3 ht).2 hd)
      | none =>
        obtain ⟨e, n1, n2⟩ := g3 rfl
        cases hr : (raNext l.rest).1 with
        | none => exact absurd hr n2
        | some c =>
          rw [hr] at h n1
          cases str with
          | none =>
            simp only at h
            have := glum_loop f (l := { l2 with behind := .string }) (by rw [e]; exact hd) (by rw [← hp]; exact g1)
              (fun st rs hh => by injection hh with hh; injection hh with _ hh; subst hh; simpa using fun hh => n1 (by rw [hh])) h
            simpa [g2] using this
          | some x =>
            obtain ⟨st, rs⟩ := x
            simp only at h
            have := glum_loop f (l := l2) (by rw [e]; exact hd) (by rw [← hp]; exact g1)
              (fun st' rs' hh => by
                injection hh with hh; injection hh with _ hh; subst hh
                have := hs _ _ rfl
                simp only [List.mem_append, List.mem_singleton, not_or]
                exact ⟨this, fun hh => n1 (by rw [hh])⟩) h
            simpa [g2] using this

theorem lexNext_next (l : Lexer) : nextFuel (l.rest.length + 1) l = some (lexNext l) := by
  have : ∃ p text, Ready l p text ∨ l.prepared ≠ none := by
    cases h : l.prepared with
    | none => exact ⟨l.pos, l.rest, .inl (by simp [Ready, h])⟩
    | some t => exact ⟨l.pos, l.rest, .inr (by simp)⟩
  obtain ⟨p, text, h | h⟩ := this
  · obtain ⟨tok, l', q, text', h1, -⟩ := next_spec _ _ p text h (Nat.le_refl _)
    simp [lexNext, h1]
  · cases hp : l.prepared with
    | none => exact absurd hp h
    | some t => simp [lexNext, nextFuel, hp]

theorem behind_loop : ∀ (f : Nat) {l l' : Lexer} {str : Option (Pos × List Char)} {t : Tok}, emitLoop f l str = some (t, l') →
    l'.prepared = none → l.prepared = none → l'.behind = t.type
  | 0, l, l', str, t, h => by simp [emitLoop] at h
  | f + 1, l, l', str, t, h => by
    intro h1 h2
    unfold emitLoop at h
    simp only at h
    split at h
    · split at h
      · simp only [Option.some.injEq, Prod.mk.injEq] at h
        rw [← h.2] at h1
        simp at h1
      · simp only [Option.some.injEq, Prod.mk.injEq] at h
        rw [← h.1, ← h.2]
    · rename_i l2 hm
      have hsh := shape_match { l with rest := (raNext l.rest).2, pos := { l.pos with col := l.pos.col + 1 } } (raNext l.rest).1
      rw [hm] at hsh
      obtain ⟨c, cx, hr, -, -, hl2⟩ := hsh.none_inv
      split at h
      · cases h
      · split at h
        · exact behind_loop f h h1 (by rw [hl2]; exact h2)
        · exact behind_loop f h h1 (by rw [hl2]; exact h2)

/-- After a token, if no other is prepared. -/
theorem behind_next {f : Nat} {t : Tok} (h : nextFuel f l = some (t, l')) (h1 : l'.prepared = none) : l'.behind = t.type := by
  unfold nextFuel at h
  split at h
  · simp only [Option.some.injEq, Prod.mk.injEq] at h
    rw [← h.1, ← h.2]
  · rename_i hp
    exact behind_loop _ h h1 hp

theorem glum_next (h : Glum l) : Fair (lexNext l).1 ∧ (lexNext l).2.ctx.raw = l.ctx.raw ∧
    ((lexNext l).1.type = .lineBreak → (lexNext l).2.ctx = ⟨[], false, l.ctx.raw⟩ ∧ (lexNext l).2.prepared = none) ∧
    ((lexNext l).1.type ≠ .lineBreak → Glum (lexNext l).2) := by
  have h1 := lexNext_next l
  cases h with
  | idle hd hp =>
    simp only [nextFuel, hp, emitToken] at h1
    exact glum_loop _ hd hp (by simp) h1
  | @ready t hp hf h2 h3 =>
    simp only [nextFuel, hp, Option.some.injEq] at h1
    rw [← h1]
    exact ⟨hf, rfl, fun ht => ⟨h2 ht, rfl⟩, fun ht => .idle (h3 ht) rfl⟩

/-! ### The first token of a line -/

/-- The end of a word. -/
def blank (c : Char) : Prop := c = ' ' ∨ c = '\t' ∨ c = '\n'

instance : DecidablePred blank := fun c => by unfold blank; infer_instance

/-- No quotes in front of the first blank. -/
def Unquoted (text : List Char) : Prop := ∀ c ∈ text.takeWhile (fun c => ¬ blank c), c ∉ ['\'', '"']

theorem Unquoted.tail (h : Unquoted (c :: r)) (hc : ¬ blank c) : Unquoted r := by
  intro d hd
  refine h d ?_
  rw [List.takeWhile_cons_of_pos (by simpa using hc)]
  exact List.mem_cons_of_mem _ hd

theorem Unquoted.head (h : Unquoted (c :: r)) : c ≠ '\'' ∧ c ≠ '"' := by
  by_cases hc : blank c
  · rcases hc with rfl | rfl | rfl <;> decide
  · have := h c (by rw [List.takeWhile_cons_of_pos (by simpa using hc)]; simp)
    simpa using this

theorem short_new : Short newCtx := ⟨rfl, by simp [newCtx]⟩

/-- What `blockMatching` does without quotes and brackets. -/
theorem block_fair (h : l.ctx = newCtx) {r : Option Char} {a : Option Tok} (h1 : r ≠ some '\'') (h2 : r ≠ some '"')
    (h3 : r ≠ some '[' ∧ r ≠ some '{' ∨ l.behind = .string) (he : blockMatching l r = (a, l')) :
    l'.prepared = l.prepared ∧ l'.ctx.raw = false ∧ (a = none → l' = l ∧ r ≠ some '\n' ∧ r ≠ some ' ' ∧ r ≠ some '\t' ∧ r ≠ none) ∧
    ∀ t, a = some t → Fair t ∧ (t.type = .lineBreak → l'.ctx = newCtx) ∧ Short l'.ctx := by
  have hb : ∀ {r a}, baseMatching l r = (a, l') → l'.prepared = l.prepared ∧ l'.ctx.raw = false ∧
      (a = none → l' = l ∧ r ≠ some '\n' ∧ r ≠ some ' ' ∧ r ≠ some '\t' ∧ r ≠ none) ∧
      ∀ t, a = some t → Fair t ∧ (t.type = .lineBreak → l'.ctx = newCtx) ∧ Short l'.ctx := by
    intro r a he
    obtain ⟨g1, g2, g3, g4⟩ := base_fair (by rw [h]; exact short_new) he
    refine ⟨g1, by rw [g2, h]; rfl, fun ha => ?_, fun t ht => ?_⟩
    · obtain ⟨k1, k2, k3⟩ := g3 ha
      refine ⟨k1, k2, ?_, ?_, k3⟩
      · rintro rfl
        subst ha
        simp [baseMatching, single] at he
      · rintro rfl
        subst ha
        simp [baseMatching, single] at he
    · obtain ⟨k1, k2, k3⟩ := g4 t ht
      refine ⟨k1, fun hh => by rw [k2 hh, h]; rfl, ?_⟩
      by_cases hh : t.type = .lineBreak
      · rw [k2 hh]; exact ⟨rfl, by simp⟩
      · exact (k3 hh).1
  have hone : ∀ {ty c cx'}, NoBracket ⟨ty, l.pos, l.pos, [c]⟩ → ty ≠ .lineBreak → ty ≠ .bom → ty ≠ .space → ty ≠ .tab → c ≠ '\n' →
      cx'.raw = false → Short cx' →
      (some (⟨ty, l.pos, l.pos, [c]⟩ : Tok), ({ l with ctx := cx' } : Lexer)) = (a, l') → l'.prepared = l.prepared ∧ l'.ctx.raw = false ∧
      (a = none → l' = l ∧ r ≠ some '\n' ∧ r ≠ some ' ' ∧ r ≠ some '\t' ∧ r ≠ none) ∧
      ∀ t, a = some t → Fair t ∧ (t.type = .lineBreak → l'.ctx = newCtx) ∧ Short l'.ctx := by
    intro ty c cx' n1 n2 n3 n4 n5 n6 n7 n8 he
    injection he with e1 e2
    subst e1 e2
    refine ⟨rfl, n7, by simp, fun t ht => ?_⟩
    injection ht with ht
    subst ht
    exact ⟨⟨n1, fun hh => absurd hh n2, fun hh => absurd hh n3, fun hh => by rcases hh with hh | hh <;> simp_all, fun _ => by simpa using n6.symm⟩,
      fun hh => absurd hh n2, n8⟩
  have htri : ∀ {ty c}, tripleAhead c l = true → ty = .directiveEnd ∨ ty = .documentEnd → c ≠ '\n' →
      triple l ty c = (a, l') → l'.prepared = l.prepared ∧ l'.ctx.raw = false ∧
      (a = none → l' = l ∧ r ≠ some '\n' ∧ r ≠ some ' ' ∧ r ≠ some '\t' ∧ r ≠ none) ∧
      ∀ t, a = some t → Fair t ∧ (t.type = .lineBreak → l'.ctx = newCtx) ∧ Short l'.ctx := by
    intro ty c ha hty hc he
    obtain ⟨r', hr⟩ := tripleAhead_rest ha
    injection he with e1 e2
    subst e1 e2
    refine ⟨rfl, by rw [h]; rfl, by simp, fun t ht => ?_⟩
    injection ht with ht
    subst ht
    refine ⟨?_, fun _ => h, by rw [h]; exact short_new⟩
    rcases hty with rfl | rfl <;>
      exact ⟨by simp [NoBracket], by simp, by simp, by simp, fun _ => by simp [hr, hc.symm]⟩
  have hsw : ∀ {x : CtxType}, x = .comment ∨ x = .multilineBlockStart ∨ x = .tag → (l.ctx.switchContext x).raw = false ∧ Short (l.ctx.switchContext x) := by
    intro x hx
    rw [h]
    exact ⟨rfl, rfl, by simpa [newCtx, Ctx.switchContext] using hx⟩
  unfold blockMatching at he
  have hcx : l.ctx.raw = false ∧ Short l.ctx := by rw [h]; exact ⟨rfl, short_new⟩
  split at he
  · split at he
    · exact hone (by simp [NoBracket]) (by simp) (by simp) (by simp) (by simp) (by decide) hcx.1 hcx.2 he
    · split at he
      · rename_i hh
        exact htri (by simp at hh; exact hh.1) (.inl rfl) (by decide) he
      · exact hb he
  · split at he
    · exact hone (by simp [NoBracket]) (by simp) (by simp) (by simp) (by simp) (by decide) hcx.1 hcx.2 he
    · exact hb he
  · split at he
    · exact hone (by simp [NoBracket]) (by simp) (by simp) (by simp) (by simp) (by decide) hcx.1 hcx.2 he
    · exact hb he
  · split at he
    · rename_i hh
      rcases h3 with h3 | h3
      · exact absurd rfl h3.1
      · simp [h3, TokType.mayPrecedeWord] at hh
    · exact hb he
  · split at he
    · rename_i hh
      rcases h3 with h3 | h3
      · exact absurd rfl h3.2
      · simp [h3, TokType.mayPrecedeWord] at hh
    · exact hb he
  · split at he
    · exact hone (by simp [NoBracket]) (by simp) (by simp) (by simp) (by simp) (by decide) (hsw (.inl rfl)).1 (hsw (.inl rfl)).2 he
    · exact hb he
  · split at he
    · exact hone (by simp [NoBracket]) (by simp) (by simp) (by simp) (by simp) (by decide) hcx.1 hcx.2 he
    · exact hb he
  · split at he
    · exact hone (by simp [NoBracket]) (by simp) (by simp) (by simp) (by simp) (by decide) hcx.1 hcx.2 he
    · exact hb he
  · exact hone (by simp [NoBracket]) (by simp) (by simp) (by simp) (by simp) (by decide) (hsw (.inr (.inr rfl))).1 (hsw (.inr (.inr rfl))).2 he
  · split at he
    · exact hone (by simp [NoBracket]) (by simp) (by simp) (by simp) (by simp) (by decide) (hsw (.inr (.inl rfl))).1 (hsw (.inr (.inl rfl))).2 he
    · exact hb he
  · split at he
    · exact hone (by simp [NoBracket]) (by simp) (by simp) (by simp) (by simp) (by decide) (hsw (.inr (.inl rfl))).1 (hsw (.inr (.inl rfl))).2 he
    · exact hb he
  · exact absurd rfl h1
  · exact absurd rfl h2
  · exact hone (by simp [NoBracket]) (by simp) (by simp) (by simp) (by simp) (by decide) hcx.1 hcx.2 he
  · split at he
    · rename_i hh
      exact htri (by simp at hh; exact hh.1) (.inr rfl) (by decide) he
    · exact hb he
  · exact hb he

theorem Short.drab (h : Short cx) : Drab (cx.setRawModeValue true) := ⟨.inl rfl, h⟩

theorem first_loop : ∀ (f : Nat) {l l' : Lexer} {str : Option (Pos × List Char)} {t : Tok}, l.ctx = newCtx → l.prepared = none →
    (∀ st rs, str = some (st, rs) → '\n' ∉ rs ∧ l.behind = .string) → (str = none → ∀ c, l.rest.head? = some c → c ≠ '[' ∧ c ≠ '{') →
    Unquoted l.rest → emitLoop f l str = some (t, l') → Fair t ∧ (t.type ≠ .lineBreak → Glum (setRawMode l' true))
  | 0, l, l', str, t, _, _, _, _, _, h => by simp [emitLoop] at h
  | f + 1, l, l', str, t, hd, hp, hs, hh, hu, h => by
    unfold emitLoop at h
    simp only at h
    rw [match_block (by exact hd)] at h
    have hq : (raNext l.rest).1 ≠ some '\'' ∧ (raNext l.rest).1 ≠ some '"' := by
      cases hr : l.rest with
      | nil => simp [raNext]
      | cons c r =>
        rw [hr] at hu
        have := hu.head
        simp only [raNext, ne_eq, Option.some.injEq]
        exact this
    have hbr : (raNext l.rest).1 ≠ some '[' ∧ (raNext l.rest).1 ≠ some '{' ∨ l.behind = .string := by
      cases str with
      | some x => exact .inr (hs x.1 x.2 rfl).2
      | none =>
        left
        cases hr : l.rest with
        | nil => simp [raNext]
        | cons c r =>
          have := hh rfl c (by rw [hr]; rfl)
          simp only [raNext, ne_eq, Option.some.injEq]
          exact this
    cases hm : blockMatching { l with rest := (raNext l.rest).2, pos := { l.pos with col := l.pos.col + 1 } } (raNext l.rest).1 with
    | mk a l2 =>
      rw [hm] at h
      obtain ⟨g1, g2, g3, g4⟩ := block_fair (by exact hd) hq.1 hq.2 (by exact hbr) hm
      cases a with
      | some sp =>
        obtain ⟨k1, k2, k3⟩ := g4 sp rfl
        cases str with
        | none =>
          simp only [Option.some.injEq, Prod.mk.injEq] at h
          obtain ⟨rfl, rfl⟩ := h
          exact ⟨k1, fun ht => .idle k3.drab (by rw [← hp]; exact g1)⟩
        | some x =>
          obtain ⟨st, rs⟩ := x
          simp only [Option.some.injEq, Prod.mk.injEq] at h
          obtain ⟨rfl, rfl⟩ := h
          refine ⟨⟨by simp [NoBracket], by simp, by simp, by simp, fun _ => (hs _ _ rfl).1⟩, fun _ => ?_⟩
          refine .ready (t := sp) rfl k1 (fun ht => ?_) (fun ht => k3.drab)
          show Ctx.setRawModeValue l2.ctx true = _
          rw [k2 ht]
          rfl
      | none =>
        obtain ⟨e, n1, n3, n4, n2⟩ := g3 rfl
        cases hr : (raNext l.rest).1 with
        | none => exact absurd hr n2
        | some c =>
          have hr2 := raNext_some hr
          rw [hr] at h n1 n3 n4
          have hu2 : Unquoted (raNext l.rest).2 := by
            rw [hr2] at hu
            refine hu.tail ?_
            rintro (rfl | rfl | rfl)
            · exact n3 rfl
            · exact n4 rfl
            · exact n1 rfl
          cases str with
          | none =>
            simp only at h
            exact first_loop f (l := { l2 with behind := .string }) (by rw [e]; exact hd) (by rw [← hp]; exact g1)
              (fun st rs hh => by
                injection hh with hh; injection hh with _ hh; subst hh
                exact ⟨by simpa using fun hh => n1 (by rw [hh]), rfl⟩) (by simp) (by rw [e]; exact hu2) h
          | some x =>
            obtain ⟨st, rs⟩ := x
            simp only at h
            exact first_loop f (l := l2) (by rw [e]; exact hd) (by rw [← hp]; exact g1)
              (fun st' rs' hh => by
                injection hh with hh; injection hh with _ hh; subst hh
                have := hs _ _ rfl
                simp only [List.mem_append, List.mem_singleton, not_or]
                refine ⟨⟨this.1, fun hh => n1 (by rw [hh])⟩, by rw [e]; exact this.2⟩) (by simp) (by rw [e]; exact hu2) h

theorem first_next (h : Lx newCtx b text l) (hh : ∀ c, text.head? = some c → c ≠ '[' ∧ c ≠ '{') (hu : Unquoted text) :
    Fair (lexNext l).1 ∧ ((lexNext l).1.type ≠ .lineBreak → Glum (setRawMode (lexNext l).2 true)) ∧
      ∃ text', text = (lexNext l).1.origin ++ text' ∧ ((lexNext l).1.type = .eof ↔ text = []) ∧
        ((lexNext l).1.origin = [] ↔ (lexNext l).1.type = .eof) ∧ ∃ q, Ready (lexNext l).2 q text' := by
  obtain ⟨l0, h0, hl⟩ := h
  rw [hl]
  have h1 := lexNext_next l0
  obtain ⟨tok, l', q, text', k1, k2, k3, k4, -, k5⟩ := next_spec _ l0 l0.pos text (by simp [Ready, h0.prepared, h0.rest]) (Nat.le_refl _)
  have e : lexNext l0 = (tok, l') := by simp [lexNext, k1]
  rw [e] at h1 ⊢
  simp only [nextFuel, h0.prepared, emitToken] at h1
  obtain ⟨g1, g2⟩ := first_loop _ h0.ctx h0.prepared (by simp) (by rw [h0.rest]; exact fun _ => hh) (by rw [h0.rest]; exact hu) h1
  exact ⟨g1, g2, text', k3, k5, k2.empty, q, k4⟩

/-! ### Positions in the text -/

/-- Before token number `p` the tokenizer is in a dull context with `text` in front. -/
structure RawIn (s : Lexer) (st : Phase) (p : Nat) (text : List Char) : Prop where
  pos : 1 ≤ p
  st : (conf s (p - 1)).2 = st
  glum : Glum (tuned (conf s (p - 1)))
  ready : ∃ q, Ready (tuned (conf s (p - 1))) q text
  flat : Nest (toks s).tok p []

theorem lex_emits0 (h : Lx cx b text l) (he : Emits cx b text ty o cx' r') :
    (lexNext l).1.type = ty ∧ (lexNext l).1.origin = o ∧ Lx0 cx' ty r' (lexNext l).2 := by
  obtain ⟨l0, h0, hl⟩ := h
  rw [hl]
  obtain ⟨rest, ctx, pos, behind, prepared⟩ := l0
  obtain ⟨h1, h2, h3, h4⟩ := h0
  simp only at h1 h2 h3 h4
  subst h1 h2 h3 h4
  obtain ⟨t, pos', g1, rfl, rfl⟩ := he { pos with col := pos.col + 1 }
  have : lexNext ⟨rest, ctx, pos, behind, none⟩ = (t, ⟨r', cx', pos', t.type, none⟩) := by
    refine lexNext_loop rfl ?_
    unfold emitLoop
    simp only [g1]
  rw [this]
  exact ⟨rfl, rfl, ⟨rfl, rfl, rfl, rfl⟩⟩

/-- No bracket. -/
def Curly (ty : TokType) : Prop := ty ≠ .mappingStart ∧ ty ≠ .mappingEnd ∧ ty ≠ .sequenceStart ∧ ty ≠ .sequenceEnd

theorem FrontIn.emit (h : FrontIn s [] st cx p b text) (he : Emits cx b text ty o cx' r') (hty : Curly ty) {st' : Phase}
    (hst : st.step ty r' = st') : (toks s p).type = ty ∧ (toks s p).origin = o ∧
      FrontIn s [] st' (cx'.setRawModeValue st'.isRaw) (p + 1) ty r' := by
  have h1 := lex_emits0 h.lx he
  rw [← toks_pos h.pos] at h1
  refine ⟨h1.1, h1.2.1, h.step (by rw [h1.1, h1.2.2.rest]; exact hst) ?_
    (h.flat.step h.pos (by unfold NoBracket; rw [h1.1]; exact hty) (fun _ => rfl))⟩
  refine ⟨_, ⟨?_, ?_, ?_, ?_⟩, rfl⟩
  · exact h1.2.2.rest
  · show Ctx.setRawModeValue _ _ = _
    rw [h1.2.2.ctx]
  · exact h1.2.2.behind
  · exact h1.2.2.prepared

theorem FrontIn.calm (h : FrontIn s [] st cx (p + 1) b text) (hst : st.isRaw = false) : Calm (toks s) p := by
  show (conf s p).2.isRaw = false
  rw [show (conf s p).2 = _ from h.st]
  exact hst

theorem RawIn.calm (h : RawIn s st (p + 1) text) (hst : st.isRaw = false) : Calm (toks s) p := by
  show (conf s p).2.isRaw = false
  rw [show (conf s p).2 = _ from h.st]
  exact hst

theorem RawIn.raw (h : RawIn s st (p + 1) text) (hst : st.isRaw = true) : (toks s).raw (p + 1) = true := by
  show (conf s p).2.isRaw = true
  rw [show (conf s p).2 = _ from h.st]
  exact hst

theorem setRaw_self {x : Bool} (h : l.ctx.raw = x) : setRawMode l x = l := by
  obtain ⟨a, ⟨b, c, d⟩, e, f, g⟩ := l
  simp only at h
  subst h
  rfl

theorem tuned_raw (c : Lexer × Phase) : (tuned c).ctx.raw = c.2.isRaw := rfl

/-- The next token in a dull context. -/
theorem RawIn.next (h : RawIn s st p text) : Fair (toks s p) ∧ ((toks s p).type = .eof ↔ text = []) ∧
    ∃ text', text = (toks s p).origin ++ text' ∧ ((toks s p).origin = [] ↔ (toks s p).type = .eof) ∧
    ((toks s p).type = .lineBreak → ∀ st', st.step .lineBreak text' = st' → st'.isRaw = false →
      FrontIn s [] st' newCtx (p + 1) .lineBreak text') ∧
    ((toks s p).type ≠ .lineBreak → (∀ r, st.step (toks s p).type r = st) → RawIn s st (p + 1) text') ∧
    (text = [] → ∃ q, Ready (tuned (conf s p)) q []) := by
  obtain ⟨q0, hr⟩ := h.ready
  obtain ⟨g1, g2, g3, g4⟩ := glum_next h.glum
  obtain ⟨tok, l', q, text', k1, k2, k3, k4, -, k5⟩ := next_spec _ _ q0 text hr (Nat.le_refl _)
  have e : lexNext (tuned (conf s (p - 1))) = (tok, l') := by simp [lexNext, k1]
  have e2 : toks s p = tok := by rw [toks_pos h.pos, e]
  rw [e] at g1 g2 g3 g4
  simp only at g1 g2 g3 g4
  have ec : ∀ st', st.step tok.type l'.rest = st' → conf s (p + 1 - 1) = (l', st') := by
    intro st' hst
    rw [conf_pos h.pos, h.st, e]
    simp only [hst]
  have hfl : Nest (toks s).tok (p + 1) [] := h.flat.step h.pos (by rw [e2]; exact g1.flat) (fun _ => rfl)
  rw [e2]
  refine ⟨g1, k5, text', k3, k2.empty, fun ht st' hst hraw => ?_, fun ht hst => ?_, fun ht => ?_⟩
  · obtain ⟨m1, m2⟩ := g3 ht
    have hrest : l'.rest = text' := by
      have := k4
      simp only [Ready, m2] at this
      exact this.2
    have ec := ec st' (by rw [ht, hrest]; exact hst)
    have hb : l'.behind = .lineBreak := by
      have hx := lexNext_next (tuned (conf s (p - 1)))
      rw [e] at hx
      exact (Parser.behind_next hx m2).trans ht
    refine ⟨by omega, by rw [ec], ?_, hfl⟩
    rw [ec]
    refine ⟨tuned (l', st'), ⟨hrest, ?_, hb, m2⟩, rfl⟩
    show Ctx.setRawModeValue l'.ctx st'.isRaw = _
    rw [m1, hraw]
    rfl
  · have ec := ec st (hst _)
    have et : tuned (l', st) = l' := setRaw_self (by rw [g2, tuned_raw, h.st])
    refine ⟨by omega, by rw [ec], by rw [ec, et]; exact g4 ht, ⟨q, by rw [ec, et]; exact k4⟩, hfl⟩
  · subst ht
    have : text' = [] := by simp at k3; exact k3.2
    subst this
    refine ⟨q, ?_⟩
    have := ec _ rfl
    rw [show p + 1 - 1 = p from rfl] at this
    rw [this]
    exact ready_setRaw k4 _

/-! ### Lines -/

/-- The end of a line of a literal scalar. -/
inductive Rim : List Char → Prop
  | line {r : List Char} : Rim ('\n' :: r)
  | eof : Rim []

theorem prefix_clean {a x : List Char} (h : u ++ text = a ++ x) (hb : Rim text) (ha : '\n' ∉ a) : ∃ v, u = a ++ v ∧ x = v ++ text := by
  rcases List.append_eq_append_iff.1 h with ⟨d, h1, h2⟩ | ⟨d, h1, h2⟩
  · cases d with
    | nil => exact ⟨[], by simpa using h1.symm, by simpa using h2.symm⟩
    | cons c d =>
      cases hb with
      | line =>
        injection h2 with h3 _
        exact absurd (by rw [h1, h3]; simp) ha
      | eof => simp at h2
  · exact ⟨d, h1, h2⟩

theorem fair_dim {k : Tok} {v : List Char} (hk : Fair k) (hu : ∀ c ∈ u, Dim c) (e : u = k.origin ++ v) (ho : k.origin ≠ []) (he : k.type ≠ .eof)
    (hb : k.type ≠ .lineBreak) : isNonBreak k = true := by
  have hbom : k.type ≠ .bom := by
    intro hh
    have := hk.bom hh
    cases hko : k.origin with
    | nil => exact ho hko
    | cons c r =>
      rw [hko] at this
      injection this with this
      have := hu c (by rw [e, hko]; simp)
      simp_all [Dim]
  cases hty : k.type <;> simp_all [isNonBreak, TokType.isNonBreak]

/-- A token inside of a line. -/
theorem RawIn.inner (h : RawIn s st p (u ++ text)) (hb : Rim text) (hu : ∀ c ∈ u, Dim c) (hne : u ≠ [])
    (hst : ∀ ty r, ty ≠ .lineBreak → ty ≠ .eof → st.step ty r = st) : (isNonBreak (toks s p) = true ∧ Free (toks s p)) ∧ ∃ v, u = (toks s p).origin ++ v ∧
      v.length < u.length ∧ RawIn s st (p + 1) (v ++ text) := by
  obtain ⟨g1, g2, text', g3, g4, -, g5, -⟩ := h.next
  have heof : (toks s p).type ≠ .eof := by rw [ne_eq, g2]; simp [hne]
  have ho : (toks s p).origin ≠ [] := by rw [ne_eq, g4]; exact heof
  have hbr : (toks s p).type ≠ .lineBreak := by
    intro hh
    obtain ⟨c, u', rfl⟩ := List.exists_cons_of_ne_nil hne
    obtain ⟨d, o', ho'⟩ := List.exists_cons_of_ne_nil ho
    have hc := hu c (by simp)
    rw [ho'] at g3
    injection g3 with g3 _
    subst g3
    rcases g1.brk hh with hh | hh
    · rw [ho'] at hh
      injection hh with hh _
      subst hh
      simp [Dim] at hc
    · rw [ho'] at hh
      simp at hh
      subst hh
      simp [Dim] at hc
  obtain ⟨v, e1, e2⟩ := prefix_clean g3 hb (g1.clean hbr)
  refine ⟨⟨fair_dim g1 hu e1 ho heof hbr, g1.flat.free⟩, v, e1, ?_, ?_⟩
  · have : 0 < (toks s p).origin.length := List.length_pos_iff.2 ho
    have := congrArg List.length e1
    simp at this
    omega
  · rw [← e2]
    exact g5 hbr (fun r => hst _ r hbr heof)

/-- The rest of a line in raw mode. -/
theorem RawIn.line (hb : Rim text) (hbr : ∀ c, RawIn s (.raw fo m) c text → isBreakOrEOF (toks s c) = true) : ∀ (n : Nat) {u : List Char} {p : Nat},
    u.length ≤ n → (∀ c ∈ u, Dim c) → RawIn s (.raw fo m) p (u ++ text) → ∃ c, RawLine (toks s) p u c ∧ RawIn s (.raw fo m) c text
  | 0, u, p, hn, _, h => by
    obtain rfl : u = [] := List.length_eq_zero_iff.1 (by omega)
    exact ⟨p, .stop (hbr p h), h⟩
  | n + 1, u, p, hn, hu, h => by
    by_cases hne : u = []
    · subst hne
      exact ⟨p, .stop (hbr p h), h⟩
    · obtain ⟨g1, v, g2, g3, g4⟩ := h.inner hb hu hne (fun ty r h1 h2 => by simp [Phase.step, h1, h2])
      obtain ⟨c, k1, k2⟩ := RawIn.line hb hbr n (u := v) (by omega) (fun c hc => hu c (by rw [g2]; simp [hc])) g4
      refine ⟨c, ?_, k2⟩
      rw [g2]
      exact .tok g1.1 ⟨g4.raw rfl, g1.2⟩ k1

/-- A comment in the header of a literal scalar. -/
theorem RawIn.note (hb : Rim text) : ∀ (n : Nat) {u : List Char} {p : Nat}, u.length ≤ n → (∀ c ∈ u, Dim c) →
    RawIn s (.header fo) p (u ++ text) → ∃ c, p ≤ c ∧ (∀ i, p ≤ i → i < c → isNonBreak (toks s i) = true ∧ Calm (toks s) i ∧ Free (toks s i)) ∧ RawIn s (.header fo) c text
  | 0, u, p, hn, _, h => by
    obtain rfl : u = [] := List.length_eq_zero_iff.1 (by omega)
    exact ⟨p, Nat.le_refl _, fun i h1 h2 => by omega, h⟩
  | n + 1, u, p, hn, hu, h => by
    by_cases hne : u = []
    · subst hne
      exact ⟨p, Nat.le_refl _, fun i h1 h2 => by omega, h⟩
    · obtain ⟨g1, v, g2, g3, g4⟩ := h.inner hb hu hne (fun ty r h1 h2 => by simp [Phase.step, h1, h2])
      obtain ⟨c, k1, k2, k3⟩ := RawIn.note hb n (u := v) (by omega) (fun c hc => hu c (by rw [g2]; simp [hc])) g4
      refine ⟨c, by omega, fun i h1 h2 => ?_, k3⟩
      by_cases hi : i = p
      · subst hi
        exact ⟨g1.1, g4.calm rfl, g1.2⟩
      · exact k2 i (by omega) h2

/-- The end of a line. -/
theorem RawIn.break (h : RawIn s st p ('\n' :: r)) : (toks s p).type = .lineBreak ∧ (toks s p).origin = ['\n'] ∧
    ∀ st', st.step .lineBreak r = st' → st'.isRaw = false → FrontIn s [] st' newCtx (p + 1) .lineBreak r := by
  obtain ⟨g1, g2, text', g3, g4, g5, -⟩ := h.next
  have ho : (toks s p).origin ≠ [] := by rw [ne_eq, g4, g2]; simp
  obtain ⟨d, o', ho'⟩ := List.exists_cons_of_ne_nil ho
  have hd : d = '\n' := by
    rw [ho'] at g3
    injection g3 with g3 _
    exact g3.symm
  subst hd
  have hbr : (toks s p).type = .lineBreak := by
    by_contra hh
    exact g1.clean hh (by rw [ho']; simp)
  have hor : (toks s p).origin = ['\n'] := by
    rcases g1.brk hbr with hh | hh
    · exact hh
    · rw [ho'] at hh; simp at hh
  rw [hor] at g3
  injection g3 with _ g3
  have : text' = r := g3.symm
  subst this
  exact ⟨hbr, hor, g5 hbr⟩

/-- At the end of the text there are only end-of-input tokens. -/
theorem ready_ends (hp : ∃ q, Ready (tuned (conf s p)) q []) (hf : Nest (toks s).tok (p + 1) []) :
    (∀ i, (toks s (p + 1 + i)).type = .eof) ∧ ∀ i, Fit (toks s).tok i := by
  have h0 : ∀ i, (toks s (p + 1 + i)).type = .eof ∧ ∃ q, Ready (tuned (conf s (p + 1 + i))) q [] := by
    have key : ∀ k, (∃ q, Ready (tuned (conf s k)) q []) → (toks s (k + 1)).type = .eof ∧ ∃ q, Ready (tuned (conf s (k + 1))) q [] := by
      rintro k ⟨q0, hr⟩
      obtain ⟨tok, l', q, text', k1, k2, k3, k4, -, k5⟩ := next_spec _ _ q0 [] hr (Nat.le_refl _)
      have e : lexNext (tuned (conf s k)) = (tok, l') := by simp [lexNext, k1]
      have : text' = [] := by simp at k3; exact k3.2
      subst this
      refine ⟨?_, q, ?_⟩
      · show (lexNext (tuned (conf s k))).1.type = _
        rw [e]; exact k5.2 rfl
      · rw [show conf s (k + 1) = (l', (conf s k).2.step tok.type l'.rest) from by simp [conf, e]]
        exact ready_setRaw k4 _
    intro i
    induction i with
    | zero => exact key p hp
    | succ i ih => exact key _ ih.2
  refine ⟨fun i => (h0 i).1, hf.all (by omega) fun i hi => ?_⟩
  have := (h0 (i - (p + 1))).1
  rw [show p + 1 + (i - (p + 1)) = i from by omega] at this
  simp [this, NoBracket]

theorem RawIn.finish (h : RawIn s st p []) : (toks s p).type = .eof ∧ (toks s (p + 1)).type = .eof ∧ After s (p + 1) [] := by
  obtain ⟨g1, g2, -, -, -, -, -, g3⟩ := h.next
  have he := g2.2 rfl
  obtain ⟨k1, k2⟩ := ready_ends (g3 rfl) (h.flat.step h.pos g1.flat (fun _ => rfl))
  have hp := h.pos
  exact ⟨he, k1 0, .done (by omega) ⟨k1 0, solW_eof hp he⟩ (k1 1) k2⟩

/-! ### Indentation -/

theorem lead_sp : ∀ (j : Nat) (r : List Char), lead (sp j ++ r) = j + lead r
  | 0, r => by simp [sp]
  | j + 1, r => by
    have := lead_sp j r
    show lead (sp j ++ r) + 1 = _
    omega

theorem lead_zero (h : r.head? ≠ some ' ') : lead r = 0 := by
  cases r with
  | nil => rfl
  | cons c r =>
    unfold lead
    split
    · simp_all
    · rfl

theorem drop_lead : ∀ (r : List Char), (r.drop (lead r)).head? ≠ some ' '
  | [] => by simp
  | c :: r => by
    by_cases h : c = ' '
    · subst h
      have := drop_lead r
      simpa [lead] using this
    · have : lead (c :: r) = 0 := lead_zero (by simpa using h)
      rw [this]
      simpa using h

theorem lead_drop : ∀ (r : List Char), (∃ c ∈ r, c ≠ ' ') → r.drop (lead r) ≠ []
  | [], h => by simp at h
  | c :: r, h => by
    by_cases h1 : c = ' '
    · subst h1
      have := lead_drop r (by simpa using h)
      simpa [lead] using this
    · have : lead (c :: r) = 0 := lead_zero (by simpa using h1)
      rw [this]
      simp

theorem drop_sp (j : Nat) (r : List Char) : (sp j ++ r).drop (j + i) = r.drop i := by
  rw [← List.drop_drop]
  congr 1
  simp [sp]

theorem after_void (h : j ≤ m) : Phase.after fo m (sp j ++ '\n' :: r) = .gap fo m := by
  have : lead (sp j ++ '\n' :: r) = j := by rw [lead_sp, lead_zero (by simp)]; rfl
  unfold Phase.after
  rw [this, if_pos]
  exact ⟨by have := drop_sp (i := 0) j ('\n' :: r); simp only [Nat.add_zero] at this; rw [this]; rfl, h⟩

theorem after_line (ht : t ≠ []) (hc : '\n' ∉ t) (hs : ∃ c ∈ t ++ r, c ≠ ' ') : Phase.after fo m (sp m ++ (t ++ r)) = .count fo m m := by
  unfold Phase.after
  have e1 := lead_sp m (t ++ r)
  rw [if_neg, if_pos]
  · refine ⟨by omega, ?_⟩
    rw [e1, drop_sp]
    exact lead_drop _ hs
  · rintro ⟨h1, h2⟩
    have h0 : lead (t ++ r) = 0 := by omega
    rw [e1, h0] at h1
    have := drop_sp (i := 0) m (t ++ r)
    rw [this] at h1
    cases t with
    | nil => exact ht rfl
    | cons c t =>
      simp at h1
      subst h1
      simp at hc

theorem after_less (h : j < m) (hc : c ≠ ' ') (hn : c ≠ '\n') : Phase.after fo m (sp j ++ c :: r) = .normal := by
  have : lead (sp j ++ c :: r) = j := by rw [lead_sp, lead_zero (by simpa using hc)]; rfl
  unfold Phase.after
  rw [this, if_neg, if_neg]
  · omega
  · rintro ⟨h1, -⟩
    have := drop_sp (i := 0) j (c :: r)
    simp only [Nat.add_zero] at this
    rw [this] at h1
    simp at h1
    exact hn h1

theorem after_end : Phase.after fo m [] = .normal := by simp [Phase.after, lead]

theorem after_raw (fo : Bool) (m : Nat) (r : List Char) : (Phase.after fo m r).isRaw = false := by
  unfold Phase.after
  split
  · rfl
  · split <;> rfl

/-- Spaces while the phase counts them. -/
theorem FrontIn.counted : ∀ {j p : Nat} {b : TokType}, FrontIn s [] (.count fo j m) newCtx p b (sp j ++ r) →
    (∀ i < j, (toks s (p + i)).type = .space ∧ Calm (toks s) (p + i)) ∧
    FrontIn s [] (.count fo 0 m) newCtx (p + j) (if j = 0 then b else .space) r
  | 0, p, b, h => ⟨fun i hi => by omega, h⟩
  | j + 1, p, b, h => by
    obtain ⟨h1, -, h3⟩ := FrontIn.emit h (emits_space (r := sp j ++ r) .block) (by simp [Curly]) (st' := .count fo j m) rfl
    obtain ⟨g1, g2⟩ := FrontIn.counted (j := j) h3
    refine ⟨fun i hi => ?_, ?_⟩
    · cases i with
      | zero => exact ⟨h1, h3.calm rfl⟩
      | succ i =>
        rw [show p + (i + 1) = p + 1 + i from by omega]
        exact g1 i (by omega)
    · rw [show p + (j + 1) = p + 1 + j from by omega, if_neg (by omega)]
      by_cases hj : j = 0
      · rw [if_pos hj] at g2; exact g2
      · rw [if_neg hj] at g2; exact g2

/-- Spaces in a blank line. -/
theorem FrontIn.spaced (hst : st.isRaw = false) (hsp : ∀ r, st.step .space r = st) (he : ∀ b r, ∃ cx', Emits cx b (' ' :: r) .space [' '] cx' r ∧ cx'.setRawModeValue false = cx) :
    ∀ {j p : Nat} {b : TokType}, FrontIn s [] st cx p b (sp j ++ r) →
    (∀ i < j, (toks s (p + i)).type = .space ∧ Calm (toks s) (p + i)) ∧ FrontIn s [] st cx (p + j) (if j = 0 then b else .space) r
  | 0, p, b, h => ⟨fun i hi => by omega, h⟩
  | j + 1, p, b, h => by
    obtain ⟨cx', e1, e2⟩ := he b (sp j ++ r)
    obtain ⟨h1, -, h3⟩ := FrontIn.emit h e1 (by simp [Curly]) (hsp _)
    rw [hst, e2] at h3
    obtain ⟨g1, g2⟩ := FrontIn.spaced hst hsp he (j := j) h3
    refine ⟨fun i hi => ?_, ?_⟩
    · cases i with
      | zero => exact ⟨h1, h3.calm hst⟩
      | succ i =>
        rw [show p + (i + 1) = p + 1 + i from by omega]
        exact g1 i (by omega)
    · rw [show p + (j + 1) = p + 1 + j from by omega, if_neg (by omega)]
      by_cases hj : j = 0
      · rw [if_pos hj] at g2; exact g2
      · rw [if_neg hj] at g2; exact g2

/-- Blank lines. -/
theorem front_voids {i : Nat} (hg : BlockText.Voids m i g) : ∀ {p : Nat},
    FrontIn s [] (.after fo m (g ++ r)) newCtx p .lineBreak (g ++ r) → solW (toks s) p = true →
    ∃ q, Voids (toks s) m p i q ∧ FrontIn s [] (.after fo m r) newCtx q .lineBreak r ∧ solW (toks s) q = true := by
  induction hg with
  | nil => intro p h hs; exact ⟨p, .nil, h, hs⟩
  | @cons i j g hj hg ih =>
    intro p h hs
    have e : sp j ++ '\n' :: g ++ r = sp j ++ '\n' :: (g ++ r) := by simp
    rw [e, after_void hj] at h
    obtain ⟨h1, h2⟩ := FrontIn.spaced (st := .gap fo m) rfl (by simp [Phase.step]) (fun b r => ⟨_, emits_space .block, rfl⟩) h
    obtain ⟨k1, k2, k3⟩ := FrontIn.emit h2 (emits_line .block) (by simp [Curly]) (st' := .after fo m (g ++ r)) (by simp [Phase.step])
    rw [after_raw] at k3
    obtain ⟨q, m1, m2⟩ := ih k3 (solW_break h2.pos k1)
    exact ⟨q, .cons ⟨h1, by simp [k1], by simp [k1]⟩ hj k1 k2 m1, m2⟩

theorem litLine_unquoted (h : LitLine t) (hb : Rim text) : Unquoted (t ++ text) := by
  intro c hc
  have : c ∈ t.takeWhile (fun c => c ∉ [' ', '\t']) := by
    have e : ∀ {t : List Char}, (∀ c ∈ t, Dim c) → c ∈ (t ++ text).takeWhile (fun c => ¬ blank c) → c ∈ t.takeWhile (fun c => c ∉ [' ', '\t']) := by
      intro t
      induction t with
      | nil =>
        intro _ hc
        cases hb with
        | line => simp [blank] at hc
        | eof => simp at hc
      | cons d t ih =>
        intro ht hc
        have hd := ht d (by simp)
        simp only [Dim, List.mem_cons, List.not_mem_nil, or_false, not_or] at hd
        rw [List.cons_append, List.takeWhile_cons] at hc
        split at hc
        · rename_i h1
          rw [List.takeWhile_cons_of_pos (by
            simp only [blank, not_or, decide_eq_true_eq] at h1
            simp [h1])]
          rcases List.mem_cons.1 hc with rfl | hc
          · simp
          · exact List.mem_cons_of_mem _ (ih (fun c hc => ht c (by simp [hc])) hc)
        · simp at hc
    exact e (fun c hc => h.chars c hc) hc
  exact h.first c this

/-- A line of text. -/
theorem front_textLine (h : FrontIn s [] (.count false m m) newCtx p b (sp m ++ (t ++ text))) (ht : LitLine t) (hb : Rim text) :
    ∃ c, TextLine (toks s) m p t c ∧ RawIn s (.raw false m) c text ∧ ((∀ c, t.head? = some c → c ∉ [' ', '\t']) → Sp (toks s) p m) := by
  obtain ⟨h1, h2⟩ := h.counted
  have hne := ht.some
  obtain ⟨c0, t0, et⟩ := List.exists_cons_of_ne_nil hne
  obtain ⟨g1, g2, text', g3, g4, g5, q, g6⟩ := first_next h2.lx (by
    intro c hc
    have := ht.head c (by rw [et] at hc ⊢; exact hc)
    simpa using this) (litLine_unquoted ht hb)
  rw [← toks_pos h2.pos] at g1 g2 g3 g4 g5
  have heof : (toks s (p + m)).type ≠ .eof := by rw [ne_eq, g4]; simp [hne]
  have ho : (toks s (p + m)).origin ≠ [] := by rw [ne_eq, g5]; exact heof
  obtain ⟨d, o', ho'⟩ := List.exists_cons_of_ne_nil ho
  have hd : d = c0 := by
    rw [ho', et] at g3
    injection g3 with g3 _
    exact g3.symm
  subst hd
  have hdim := ht.chars d (by rw [et]; simp)
  simp only [List.mem_cons, List.not_mem_nil, or_false, not_or] at hdim
  have hbr : (toks s (p + m)).type ≠ .lineBreak := by
    intro hh
    rcases g1.brk hh with hh | hh
    · rw [ho'] at hh
      injection hh with hh _
      exact hdim.1 hh
    · rw [ho'] at hh
      simp at hh
      exact hdim.2.1 hh
  obtain ⟨v, e1, e2⟩ := prefix_clean g3 hb (g1.clean hbr)
  have hnb := fair_dim g1 (fun c hc => ht.chars c hc) e1 ho heof hbr
  have hraw : RawIn s (.raw false m) (p + m + 1) (v ++ text) := by
    have ec : conf s (p + m + 1 - 1) = ((lexNext (tuned (conf s (p + m - 1)))).2, .raw false m) := by
      rw [conf_pos h2.pos, h2.st, ← toks_pos h2.pos]
      simp [Phase.step, hbr, heof]
    refine ⟨by omega, by rw [ec], by rw [ec]; exact g2 hbr, ⟨q, by rw [ec, ← e2]; exact ready_setRaw g6 _⟩,
      h2.flat.step h2.pos g1.flat (fun _ => rfl)⟩
  have hstop : ∀ c, RawIn s (.raw false m) c text → isBreakOrEOF (toks s c) = true := by
    intro c hc
    cases hb with
    | line => simp [isBreakOrEOF, hc.break.1]
    | eof => simp [isBreakOrEOF, hc.finish.1]
  obtain ⟨c, k1, k2⟩ := RawIn.line hb hstop _ (Nat.le_refl _) (fun c hc => ht.chars c (by rw [e1]; simp [hc])) hraw
  refine ⟨c, ⟨h1, hnb, ?_⟩, k2, fun hh => ⟨h1, ?_, ?_⟩⟩
  · rw [e1]
    exact .tok hnb ⟨hraw.raw rfl, g1.flat.free⟩ k1
  all_goals
    intro hw
    have hx := hh d (by rw [et]; rfl)
    rcases g1.white (by first | exact .inl hw | exact .inr hw) with hy | hy <;> rw [ho'] at hy <;> simp at hy <;> simp [hy] at hx

/-! ### The scalar -/

/-- There is something besides spaces: a line feed, or a character of the last line. -/
theorem solid_some (h : BlockText.Lines m u v) (hb : Rim text) (hs : text = [] → BlockText.Solid (t ++ v)) : ∃ c ∈ t ++ (u ++ text), c ≠ ' ' := by
  cases h with
  | more => exact ⟨'\n', by simp, by decide⟩
  | stop =>
    cases hb with
    | line => exact ⟨'\n', by simp, by decide⟩
    | eof =>
      obtain ⟨c, h1, h2⟩ := hs rfl
      have := (List.takeWhile_subset _ h1)
      exact ⟨c, by simpa using this, h2⟩

theorem solid_tail (h : BlockText.Solid (t ++ '\n' :: v)) : BlockText.Solid v := by
  obtain ⟨c, h1, h2⟩ := h
  refine ⟨c, ?_, h2⟩
  rw [List.reverse_append, List.reverse_cons, List.append_assoc, List.takeWhile_append] at h1
  split at h1
  · rename_i hl
    rw [List.singleton_append, List.takeWhile_cons_of_neg (by simp), List.append_nil] at h1
    have : List.takeWhile (fun x => decide (x ≠ '\n')) v.reverse = v.reverse := (List.takeWhile_prefix _).eq_of_length hl
    rw [this]
    exact h1
  · exact h1

theorem solid_more {i : Nat} (h : BlockText.Solid (t ++ '\n' :: (List.replicate i '\n' ++ v))) : BlockText.Solid v := by
  replace h := solid_tail h
  induction i with
  | zero => simpa using h
  | succ i ih =>
    rw [List.replicate_succ, List.cons_append] at h
    exact ih (solid_tail (t := []) h)

theorem lines_brink (h : BlockText.Lines m u v) (hb : Rim text) : Rim (u ++ text) := by
  cases h with
  | stop => exact hb
  | more => exact .line

theorem front_lines (hu : BlockText.Lines m u v) (hb : Rim text) : ∀ {p : Nat} {t : List Char}, RawIn s (.raw false m) p (u ++ text) →
    (text = [] → BlockText.Solid (t ++ v)) → ∃ d, Lits (toks s) m p v d ∧ RawIn s (.raw false m) d text := by
  induction hu with
  | stop => intro p t h _; exact ⟨p, .stop, h⟩
  | @more i g t' u v hg ht hu ih =>
    intro p t h hs
    simp only [List.cons_append, List.append_assoc] at h
    obtain ⟨h1, h2, h3⟩ := h.break
    have h3 := h3 _ rfl (by simp only [Phase.step, if_true]; exact after_raw _ _ _)
    simp only [Phase.step, if_true] at h3
    obtain ⟨q, g1, g2, g3⟩ := front_voids hg h3 (solW_break h.pos h1)
    have hs' : text = [] → BlockText.Solid (t' ++ v) := fun e => solid_more (hs e)
    have hl := lines_brink hu hb
    rw [after_line ht.some (fun hh => by have := ht.chars _ hh; simp at this) (solid_some hu hb hs')] at g2
    obtain ⟨c, k1, k2, -⟩ := front_textLine g2 ht hl
    obtain ⟨d, m1, m2⟩ := ih k2 hs'
    exact ⟨d, .more h1 h2 g1 k1 m1, m2⟩

theorem notes_gap (h : BlockText.Notes m z g) : BlockText.Gap z g := by
  cases h with
  | line h1 h2 h3 => exact .line (.remark h2) h3
  | last h1 h2 => exact .last (.remark h2)

theorem notes_front {z : Bool} (h : BlockText.Notes m z g) : ∃ j r, g = sp j ++ '#' :: r ∧ j < m := by
  cases h with
  | line h1 h2 h3 => exact ⟨_, _, rfl, h1⟩
  | last h1 h2 => exact ⟨_, _, rfl, h1⟩

/-- The end of a line: in raw mode, or behind the only token of a line of a folded scalar. -/
inductive LineEnd (s : Lexer) : Bool → Nat → Nat → List Char → Prop
  | raw {fo : Bool} {m p : Nat} {text : List Char} : RawIn s (.raw fo m) p text → LineEnd s fo m p text
  | near {m p : Nat} {b : TokType} {text : List Char} : FrontIn s [] (.near m) newCtx p b text → LineEnd s true m p text

theorem LineEnd.pos (h : LineEnd s fo m p text) : 1 ≤ p := by
  cases h with
  | raw h => exact h.pos
  | near h => exact h.pos

theorem LineEnd.break (h : LineEnd s fo m p ('\n' :: r)) : (toks s p).type = .lineBreak ∧ (toks s p).origin = ['\n'] ∧
    FrontIn s [] (.after fo m r) newCtx (p + 1) .lineBreak r := by
  cases h with
  | raw h =>
    obtain ⟨h1, h2, h3⟩ := h.break
    have h3 := h3 _ rfl (by simp only [Phase.step, if_true]; exact after_raw _ _ _)
    simp only [Phase.step, if_true] at h3
    exact ⟨h1, h2, h3⟩
  | near h =>
    obtain ⟨k1, k2, k3⟩ := FrontIn.emit h (emits_line .block) (by simp [Curly]) (st' := .after true m r) (by simp [Phase.step])
    rw [after_raw] at k3
    exact ⟨k1, k2, k3⟩

theorem LineEnd.finish (h : LineEnd s fo m p []) : (toks s p).type = .eof ∧ (toks s (p + 1)).type = .eof ∧ After s (p + 1) [] := by
  cases h with
  | raw h => exact h.finish
  | near h =>
    obtain ⟨k1, k2, k3⟩ := FrontIn.emit h (emits_eof .block) (by simp [Curly]) (st' := .normal) (by simp [Phase.step])
    obtain ⟨g1, g2⟩ := Front.ends .block ⟨k3⟩
    have hp := h.pos
    exact ⟨k1, g1 0, .done (by omega) ⟨g1 0, solW_eof hp k1⟩ (g1 1) g2⟩

theorem LineEnd.stop (h : LineEnd s fo m p text) (hb : Rim text) : isBreakOrEOF (toks s p) = true := by
  cases hb with
  | line => simp [isBreakOrEOF, h.break.1]
  | eof => simp [isBreakOrEOF, h.finish.1]

theorem FrontIn.emitDrab (h : FrontIn s [] st cx p b text) (he : Emits cx b text ty o cx' r') (hty : Curly ty) {st' : Phase}
    (hst : st.step ty r' = st') (hd : Drab (cx'.setRawModeValue st'.isRaw)) : (toks s p).type = ty ∧ RawIn s st' (p + 1) r' := by
  have h1 := lex_emits0 h.lx he
  have h0 := FrontIn.emit h he hty hst
  have ec : conf s (p + 1 - 1) = ((lexNext (tuned (conf s (p - 1)))).2, st') := by
    rw [conf_pos h.pos, h.st, h1.1, h1.2.2.rest, hst]
  refine ⟨h0.1, by omega, by rw [ec], ?_, ⟨(lexNext (tuned (conf s (p - 1)))).2.pos, ?_⟩, h0.2.2.flat⟩
  · rw [ec]
    refine .idle ?_ h1.2.2.prepared
    show Drab (Ctx.setRawModeValue _ _)
    rw [h1.2.2.ctx]
    exact hd
  · rw [ec]
    refine ready_setRaw ?_ _
    simp [Ready, h1.2.2.prepared, h1.2.2.rest]

theorem fold_folding (i : Nat) : BlockText.fold i = folding i := by cases i <;> rfl

theorem _root_.Verif.BlockText.FoldLine.head (h : FoldLine t) : ∃ c r, t = c :: r ∧ c ≠ ' ' := by
  have key : ∀ {w v : List Char}, LooseWord w → ∃ c r, w ++ v = c :: r ∧ c ≠ ' ' := by
    intro w v hw
    obtain ⟨c, r, rfl, -⟩ := hw.first
    exact ⟨c, r ++ v, rfl, by rintro rfl; exact hw.chars ' ' (by simp) (by decide)⟩
  cases h with
  | word h => exact key h
  | colon h => exact key h

theorem _root_.Verif.BlockText.FoldLine.clean (h : FoldLine t) : '\n' ∉ t := by
  have key : ∀ {w : List Char}, LooseWord w → '\n' ∉ w := fun hw hh => hw.chars _ hh (by decide)
  cases h with
  | word h h1 h2 => simpa using ⟨key h, fun hh => by simpa using h2 _ hh⟩
  | colon h h1 h2 => simpa using ⟨key h, fun hh => by simpa using h2 _ hh⟩

/-- A line of a folded scalar. -/
theorem front_foldLine (h : FrontIn s [] (.count true m m) newCtx p b (sp m ++ (t ++ text))) (ht : FoldLine t) (hb : Rim text) :
    ∃ c, FoldText (toks s) m p t c ∧ LineEnd s true m c text ∧ Sp (toks s) p m := by
  obtain ⟨h1, h2⟩ := h.counted
  have key : ∀ {w v : List Char}, LooseWord w → Halt (v ++ text) →
      FrontIn s [] (.count true 0 m) newCtx (p + m) (if m = 0 then b else .space) (w ++ (v ++ text)) →
      (∀ q, FrontIn s [] (.near m) newCtx q .string (v ++ text) → ∃ c, RawLine (toks s) q v c ∧ LineEnd s true m c text) →
      ∃ c, FoldText (toks s) m p (w ++ v) c ∧ LineEnd s true m c text ∧ Sp (toks s) p m := by
    intro w v hw hh h hn
    obtain ⟨ty, o, r', he⟩ := hh.emits
    obtain ⟨c, w, rfl, -⟩ := hw.first
    have hl := hw.last
    have k0 := lex_string h.lx (passes_word hw hh) (runs_word (fun d hd => hw.chars d (by simp [hd])) (by
      cases w with
      | nil => simp
      | cons d w => simpa [List.getLast?_cons_cons] using hl)) he
    rw [← toks_pos h.pos] at k0
    obtain ⟨k1, k2, k3⟩ := k0
    have k4 : FrontIn s [] (.near m) newCtx (p + m + 1) .string (v ++ text) := by
      refine h.step (by simp [Phase.step, k1]) ?_ (h.flat.step h.pos (show NoBracket (toks s (p + m)) by simp [NoBracket, k1]) (fun _ => rfl))
      rw [tuned_next _ (by rw [h.st]; rfl)]
      exact k3
    obtain ⟨c', m1, m2⟩ := hn _ k4
    refine ⟨c', ?_, m2, h1, by simp [k1], by simp [k1]⟩
    rw [← k2]
    exact .mk h1 (by simp [isNonBreak, k1, TokType.isNonBreak]) (by simp [isWhite, k1]; rfl) (k4.calm rfl) (.of k1) m1
  have rest : ∀ {c : Char} {v : List Char} {ty : TokType} {q : Nat}, (∀ c ∈ v, Dim c) → Emits newCtx .string (c :: (v ++ text)) ty [c] newCtx (v ++ text) → Curly ty →
      isNonBreak (⟨ty, ⟨0, 0⟩, ⟨0, 0⟩, []⟩ : Tok) = true → FrontIn s [] (.near m) newCtx q .string (c :: v ++ text) →
      ∃ c', RawLine (toks s) q (c :: v) c' ∧ LineEnd s true m c' text := by
    intro c v ty q hv he hc hn h
    have hst : Phase.step (.near m) ty (v ++ text) = .raw true m := by
      cases ty <;> simp_all [isNonBreak, TokType.isNonBreak, Phase.step]
    obtain ⟨k1, k2, -⟩ := FrontIn.emit h he hc hst
    obtain ⟨-, k3⟩ := FrontIn.emitDrab h he hc hst ⟨.inl rfl, short_new⟩
    obtain ⟨c', g1, g2⟩ := RawIn.line (fo := true) hb (fun c hc => (LineEnd.raw hc).stop hb) _ (Nat.le_refl _) hv k3
    refine ⟨c', ?_, .raw g2⟩
    have := RawLine.tok (W := toks s) (p := q) (by simpa [isNonBreak, k1] using hn) ⟨k3.raw rfl, (show NoBracket (toks s q) by unfold NoBracket; rw [k1]; exact hc).free⟩ g1
    rw [k2] at this
    exact this
  have words : ∀ {v : List Char}, (∀ c, v.head? = some c → c = ' ') → Halt (v ++ text) := by
    intro v hv
    cases v with
    | nil =>
      cases hb with
      | line => exact .line
      | eof => exact .eof
    | cons c v =>
      obtain rfl := hv c rfl
      exact .space
  cases ht with
  | @word w v hw hv hd =>
    rw [List.append_assoc] at h2
    refine key hw (words hv) h2 fun q hq => ?_
    cases v with
    | nil => exact ⟨q, .stop ((LineEnd.near hq).stop hb), .near hq⟩
    | cons c v =>
      obtain rfl := hv c rfl
      exact rest (fun c hc => hd c (by simp [hc])) (emits_space .block) (by simp [Curly]) rfl hq
  | @colon w v hw hv hd =>
    have hbl : blankOrEOF (v ++ text).head? = true := by
      cases v with
      | nil =>
        cases hb with
        | line => rfl
        | eof => rfl
      | cons c v =>
        obtain rfl := hv c rfl
        rfl
    rw [List.append_assoc] at h2
    exact key hw (.colon hbl) h2 fun q hq => rest hd (emits_colon hbl) (by simp [Curly]) rfl hq

theorem foldLines_brink (h : BlockText.FoldLines m u v) (hb : Rim text) : Rim (u ++ text) := by
  cases h with
  | stop => exact hb
  | more => exact .line

theorem front_foldLines (hu : BlockText.FoldLines m u v) (hb : Rim text) : ∀ {p : Nat}, LineEnd s true m p (u ++ text) →
    ∃ d, FoldLines (toks s) m p v d ∧ LineEnd s true m d text := by
  induction hu with
  | stop => intro p h; exact ⟨p, .stop, h⟩
  | @more i g t' u v hg ht hu ih =>
    intro p h
    simp only [List.cons_append, List.append_assoc] at h
    obtain ⟨h1, h2, h3⟩ := h.break
    obtain ⟨q, g1, g2, g3⟩ := front_voids hg h3 (solW_break h.pos h1)
    have hl := foldLines_brink hu hb
    rw [after_line (by obtain ⟨c, r, rfl, -⟩ := ht.head; simp) ht.clean (by obtain ⟨c, r, rfl, hc⟩ := ht.head; exact ⟨c, by simp, hc⟩)] at g2
    obtain ⟨c, k1, k2, -⟩ := front_foldLine g2 ht hl
    obtain ⟨d, m1, m2⟩ := ih k2
    rw [fold_folding]
    exact ⟨d, .more h1 g1 k1 m1, m2⟩

theorem front_ending {z : Bool} {o : Option Nat} (hw : BlockText.Ending m z o w) (hz : z = true → r = []) (hr : LineStart m r)
    (h : LineEnd s fo m p (w ++ r)) : ∃ q, Ending (toks s) m p o q ∧ After s q r := by
  cases hw with
  | @line _ i g hg =>
    obtain ⟨h1, h2, h3⟩ := LineEnd.break (r := g ++ r) h
    obtain ⟨q, g1, g2, g3⟩ := front_voids hg h3 (solW_break h.pos h1)
    rcases hr with rfl | ⟨j, c, r, rfl, hc, hj⟩
    · rw [after_end] at g2
      obtain ⟨k1, k2⟩ := Front.ends .block ⟨g2⟩
      exact ⟨q, .line h1 h2 g1 (.eof (k1 0)), .stop g2.pos (k1 0) g3 (k1 1) k2⟩
    · rw [after_less hj (by rintro rfl; simp [Visible] at hc) (by rintro rfl; simp [Visible] at hc)] at g2
      obtain ⟨k1, k2, k3⟩ := Front.lineSp ⟨g2⟩ hc
      exact ⟨q, .line h1 h2 g1 (.line k1 hj k2), .line (by simp) rfl ⟨g2⟩ g3⟩
  | @notes _ i g g' hg hn =>
    obtain ⟨h1, h2, h3⟩ := LineEnd.break (r := g ++ (g' ++ r)) (by simpa using h)
    obtain ⟨q, g1, g2, g3⟩ := front_voids hg h3 (solW_break h.pos h1)
    obtain ⟨j, x, e, hj⟩ := notes_front hn
    have g2' := g2
    rw [e, List.append_assoc, List.cons_append, after_less hj (by decide) (by decide)] at g2
    rw [e, List.append_assoc, List.cons_append, after_less hj (by decide) (by decide), ← List.cons_append, ← List.append_assoc, ← e] at g2'
    obtain ⟨k1, k2⟩ := Front.spaces (cx := newCtx) .block ⟨g2⟩
    simp only [ite_self] at k2
    obtain ⟨k3, -, -⟩ := k2.emit (emits_sharp (by split <;> rfl)) (by simp [Plainly])
    obtain ⟨q', m1, m2⟩ := Front.gap (notes_gap hn) hz hr rfl g3 ⟨g2'⟩
    exact ⟨q', .line h1 h2 g1 (.remark ⟨fun i hi => (k1 i hi).1, by simp [k3], by simp [k3]⟩ hj k3 m1), m2⟩
  | eof =>
    obtain rfl := hz rfl
    obtain ⟨h1, h2, h3⟩ := LineEnd.finish h
    exact ⟨_, .eof h1 h2, h3⟩

/-! ### The header -/

/-- The context after the bar. -/
def barCtx : Ctx := ⟨[.multilineBlockStart], false, false⟩

theorem emits_bar (hb : b.mayPrecedeWord = true) : Emits newCtx b ('|' :: r) .literal ['|'] barCtx r := by
  intro pos
  exact ⟨_, _, (match_block rfl _).trans (if_pos hb), rfl, rfl⟩

theorem emits_gt (hb : b.mayPrecedeWord = true) : Emits newCtx b ('>' :: r) .folded ['>'] barCtx r := by
  intro pos
  exact ⟨_, _, (match_block rfl _).trans (if_pos hb), rfl, rfl⟩

theorem emits_strip : Emits barCtx b ('-' :: r) .stripChomping ['-'] barCtx r := fun _ => ⟨_, _, rfl, rfl, rfl⟩

theorem emits_keep : Emits barCtx b ('+' :: r) .keepChomping ['+'] barCtx r := fun _ => ⟨_, _, rfl, rfl, rfl⟩

theorem emits_barSpace : Emits barCtx b (' ' :: r) .space [' '] barCtx r := fun _ => ⟨_, _, rfl, rfl, rfl⟩

theorem emits_barLine : Emits barCtx b ('\n' :: r) .lineBreak ['\n'] newCtx r := fun _ => ⟨_, _, rfl, rfl, rfl⟩

theorem emits_barSharp (hb : b.mayPrecedeWord = true) :
    Emits barCtx b ('#' :: r) .comment ['#'] ⟨[.comment, .multilineBlockStart], false, false⟩ r := by
  intro pos
  have : ∀ l : Lexer, l.ctx = barCtx → l.behind = b → matchSpecialToken l (some '#') = singleSwitch l .comment '#' .comment := by
    intro l h1 h2
    have : matchSpecialToken l (some '#') = multilineBlockStartMatching l (some '#') := by
      simp [matchSpecialToken, h1, barCtx, Ctx.currentType]
    rw [this]
    exact if_pos (by rw [h2]; exact hb)
  exact ⟨_, _, this _ rfl rfl, rfl, rfl⟩

/-- The rest of the header, up to the end of the line. -/
theorem front_header {a : List Char} (ha : BlockText.Tail a) (hi : 0 < i ∨ a = [])
    (h : FrontIn s [] (.header fo) barCtx p b (sp i ++ (a ++ '\n' :: r))) :
    ∃ c, Sp (toks s) p i ∧ Tail (toks s) (p + i) c ∧ (0 < i ∨ c = p + i) ∧ (toks s c).type = .lineBreak ∧
      FrontIn s [] (.count fo (lead r) (lead r)) newCtx (c + 1) .lineBreak r ∧ 1 ≤ c := by
  obtain ⟨h1, h2⟩ := FrontIn.spaced (st := .header fo) rfl (by simp [Phase.step]) (fun b r => ⟨_, emits_barSpace, rfl⟩) h
  have hst : ∀ r, Phase.step (.header fo) .lineBreak r = .count fo (lead r) (lead r) := fun r => by simp [Phase.step]
  cases ha with
  | none =>
    obtain ⟨k1, -, k3⟩ := FrontIn.emit h2 emits_barLine (by simp [Curly]) (hst _)
    exact ⟨p + i, ⟨h1, by simp [k1], by simp [k1]⟩, .none (by simp [isBreakOrEOF, k1]), .inr rfl, k1, k3, h2.pos⟩
  | @remark c hc =>
    have hi : 0 < i := by simpa using hi
    rw [if_neg (by omega)] at h2
    obtain ⟨k1, k2⟩ := FrontIn.emitDrab (r' := c ++ '\n' :: r) h2 (emits_barSharp rfl) (by simp [Curly]) (st' := .header fo) (by simp [Phase.step])
      ⟨.inr ⟨_, rfl⟩, rfl, by simp [Ctx.setRawModeValue]⟩
    obtain ⟨d, g1, g2, g3⟩ := RawIn.note .line _ (Nat.le_refl _) hc k2
    obtain ⟨m1, -, m3⟩ := g3.break
    exact ⟨d, ⟨h1, by simp [k1], by simp [k1]⟩, .text k1 (k2.calm rfl) (by omega) (fun i h4 h5 => g2 i (by omega) h5) (by simp [isBreakOrEOF, m1]),
      .inl hi, m1, m3 _ (hst _) rfl, g3.pos⟩

/-- The same signs. -/
def chomping : BlockText.Chomp → Chomping
  | .clip => .clip
  | .strip => .strip
  | .keep => .keep

theorem chomped_kept {ch : BlockText.Chomp} {o : Option Nat} : chomped (chomping ch) o = ch.kept o := by
  cases ch <;> cases o <;> rfl

theorem passes_digit {i : Nat} (h1 : 1 ≤ i) (h2 : i ≤ 9) : Passes barCtx b i.digitChar r := by
  intro pos
  have : i = 1 ∨ i = 2 ∨ i = 3 ∨ i = 4 ∨ i = 5 ∨ i = 6 ∨ i = 7 ∨ i = 8 ∨ i = 9 := by omega
  rcases this with rfl | rfl | rfl | rfl | rfl | rfl | rfl | rfl | rfl <;> rfl

/-- A digit of the header. -/
theorem FrontIn.digit {i : Nat} (h : FrontIn s [] (.header fo) barCtx p b (i.digitChar :: text)) (h1 : 1 ≤ i) (h2 : i ≤ 9)
    (he : Emits barCtx .string text ty o cx' r') : Digit (toks s) p i ∧ FrontIn s [] (.header fo) barCtx (p + 1) .string text := by
  have g := lex_string (w := []) h.lx (passes_digit h1 h2) trivial he
  rw [← toks_pos h.pos] at g
  have g3 : FrontIn s [] (.header fo) barCtx (p + 1) .string text := by
    refine h.step (by rw [g.1]; simp [Phase.step]) ?_ (h.flat.step h.pos (by simp [NoBracket, g.1]) (fun _ => rfl))
    rw [tuned_next _ (by rw [h.st])]
    exact g.2.2
  exact ⟨⟨g.1, g.2.1, g3.calm rfl, h1, h2⟩, g3⟩

/-- A sign of the header. -/
theorem FrontIn.sign {ch : BlockText.Chomp} (h : FrontIn s [] (.header fo) barCtx p b (ch.sign ++ text)) (hc : ch ≠ .clip) :
    ∃ b', Sign (toks s) p (chomping ch) ∧ FrontIn s [] (.header fo) barCtx (p + 1) b' text := by
  cases ch with
  | clip => exact absurd rfl hc
  | strip =>
    obtain ⟨k1, -, k3⟩ := FrontIn.emit h emits_strip (by simp [Curly]) (st' := .header fo) (by simp [Phase.step])
    exact ⟨_, ⟨.inl ⟨rfl, k1⟩, FrontIn.calm k3 rfl⟩, k3⟩
  | keep =>
    obtain ⟨k1, -, k3⟩ := FrontIn.emit h emits_keep (by simp [Curly]) (st' := .header fo) (by simp [Phase.step])
    exact ⟨_, ⟨.inr ⟨rfl, k1⟩, FrontIn.calm k3 rfl⟩, k3⟩

theorem emits_sign {ch : BlockText.Chomp} (hc : ch ≠ .clip) : ∃ ty o cx' r', Emits barCtx .string (ch.sign ++ text) ty o cx' r' := by
  cases ch with
  | clip => exact absurd rfl hc
  | strip => exact ⟨_, _, _, _, emits_strip⟩
  | keep => exact ⟨_, _, _, _, emits_keep⟩

theorem emits_headerEnd {a : List Char} (hi : 0 < i ∨ a = []) : ∃ ty o cx' r', Emits barCtx .string (sp i ++ (a ++ '\n' :: r)) ty o cx' r' := by
  cases i with
  | zero =>
    obtain rfl : a = [] := by simpa using hi
    exact ⟨_, _, _, _, emits_barLine⟩
  | succ i => exact ⟨_, _, _, _, emits_barSpace (r := sp i ++ (a ++ '\n' :: r))⟩

/-- The header of a literal or folded scalar. -/
theorem front_sign {ch : BlockText.Chomp} {d : Nat} {g a : List Char} (hg : BlockText.Signs d ch g) (ha : BlockText.Tail a) (hi : 0 < i ∨ a = [])
    (hr : lead r = m) (h : FrontIn s [] (.header fo) barCtx p b (g ++ (sp i ++ (a ++ '\n' :: r)))) :
    ∃ k c j, Header (toks s) p (chomping ch) j c ∧ (j = 0 ∨ j = d) ∧ FrontIn s [] (.count fo m m) newCtx (c + 1) k r := by
  have key : ∀ {q j b}, Signs (toks s) p (chomping ch) j q → j = 0 ∨ j = d → FrontIn s [] (.header fo) barCtx q b (sp i ++ (a ++ '\n' :: r)) →
      ∃ k c j, Header (toks s) p (chomping ch) j c ∧ (j = 0 ∨ j = d) ∧ FrontIn s [] (.count fo m m) newCtx (c + 1) k r := by
    intro q j b hs hj h
    obtain ⟨c, g1, g2, g3, g4, g5, -⟩ := front_header ha hi h
    rw [hr] at g5
    exact ⟨_, c, j, .mk hs g1 g2 g3 g4, hj, g5⟩
  obtain ⟨ty, o, cx', r', he⟩ := emits_headerEnd (r := r) hi
  cases hg with
  | none =>
    by_cases hc : ch = .clip
    · subst hc
      exact key .none (.inl rfl) h
    · obtain ⟨b', h1, h2⟩ := FrontIn.sign h hc
      exact key (.sign h1) (.inl rfl) h2
  | before h1 h2 =>
    rw [List.cons_append] at h
    by_cases hc : ch = .clip
    · subst hc
      obtain ⟨g1, g2⟩ := FrontIn.digit h h1 h2 he
      exact key (.digit g1) (.inr rfl) g2
    · obtain ⟨_, _, _, _, he⟩ := emits_sign (text := sp i ++ (a ++ '\n' :: r)) hc
      obtain ⟨g1, g2⟩ := FrontIn.digit h h1 h2 he
      obtain ⟨b', g3, g4⟩ := FrontIn.sign g2 hc
      exact key (.before g1 g3) (.inr rfl) g4
  | behind h1 h2 =>
    rw [List.append_assoc] at h
    by_cases hc : ch = .clip
    · subst hc
      obtain ⟨g1, g2⟩ := FrontIn.digit h h1 h2 he
      exact key (.digit g1) (.inr rfl) g2
    · obtain ⟨b', g3, g4⟩ := FrontIn.sign h hc
      obtain ⟨g1, g2⟩ := FrontIn.digit g4 h1 h2 he
      exact key (.behind g3 g1) (.inr rfl) g2

/-- A literal or folded scalar. -/
theorem Front.literal {z : Bool} (h : Front s newCtx p b (u ++ r)) (hb : b.mayPrecedeWord = true) (hu : BlockText.Literal n m z u t) (hn : n ≤ m)
    (hz : z = true → r = []) (hr : LineStart m r) : ∃ q, Lit (toks s) n m p t q ∧ After s q r := by
  have hbr : ∀ {o w}, BlockText.Ending m z o w → Rim (w ++ r) := by
    intro o w hw
    cases hw with
    | line => exact .line
    | notes => exact .line
    | eof => obtain rfl := hz rfl; exact .eof
  cases hu with
  | @mk ch i g a t u v w o hg ha hi ht hh hu hw hs =>
    simp only [List.cons_append, List.append_assoc] at h
    obtain ⟨h1, -, h3⟩ := FrontIn.emit h.toFrontIn (emits_bar hb) (by simp [Curly]) (st' := .header false) (by simp [Phase.step])
    have hbr := hbr hw
    have hlead : lead (sp m ++ (t ++ (u ++ (w ++ r)))) = m := by
      rw [lead_sp, lead_zero]
      · rfl
      · obtain ⟨c0, t0, et⟩ := List.exists_cons_of_ne_nil ht.some
        have := hh c0 (by rw [et]; rfl)
        rw [et]
        simp at this ⊢
        exact this.1
    obtain ⟨k, c, j, k1, k0, k2⟩ := front_sign hg ha hi hlead h3
    obtain ⟨c', m1, m2, m3⟩ := front_textLine k2 ht (lines_brink hu hbr)
    have hs' : w ++ r = [] → BlockText.Solid (t ++ v) := by
      intro e
      apply hs
      cases hw with
      | line => simp at e
      | notes => simp at e
      | eof => rfl
    obtain ⟨d, n1, n2⟩ := front_lines hu hbr m2 hs'
    obtain ⟨q, o1, o2⟩ := front_ending hw hz hr (.raw n2)
    refine ⟨q, ?_, o2⟩
    rw [← chomped_kept]
    exact .bar (.mk h1 (h3.calm rfl) k1 (by omega) (m3 hh) m1 n1 o1)
  | @folded ch i g a t u v w o hg ha hi ht hu hw =>
    simp only [List.cons_append, List.append_assoc] at h
    obtain ⟨h1, -, h3⟩ := FrontIn.emit h.toFrontIn (emits_gt hb) (by simp [Curly]) (st' := .header true) (by simp [Phase.step])
    have hbr := hbr hw
    have hlead : lead (sp m ++ (t ++ (u ++ (w ++ r)))) = m := by
      rw [lead_sp, lead_zero]
      · rfl
      · obtain ⟨c0, t0, et, hc⟩ := ht.head
        rw [et]
        simpa using hc
    obtain ⟨k, c, j, k1, k0, k2⟩ := front_sign hg ha hi hlead h3
    obtain ⟨c', m1, m2, m3⟩ := front_foldLine k2 ht (foldLines_brink hu hbr)
    obtain ⟨d, n1, n2⟩ := front_foldLines hu hbr m2
    obtain ⟨q, o1, o2⟩ := front_ending hw hz hr n2
    refine ⟨q, ?_, o2⟩
    rw [← chomped_kept]
    exact .folded (.mk h1 (h3.calm rfl) k1 (by omega) m3 m1 n1 o1)

end Verif.Parser
