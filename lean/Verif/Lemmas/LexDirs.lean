import Verif.Lemmas.TextBlock
import Verif.Lemmas.ParserRunDocs

/-!
The tokens of directives.
-/

set_option linter.unusedSimpArgs false
set_option linter.unusedSectionVars false

namespace Verif.Parser

open Verif.Token Verif.Lexer Verif.Ast Verif.PlainTree
open Verif.BlockText (sp nameChar Ink Numeral TagHandle TagPrefix Params)

variable {b ty : TokType} {text r r' w o t u v g : List Char} {l : Lexer} {c x : Char} {cx cx' : Ctx} {d z : Bool} {s : Lexer}
  {p q j i n m : Nat} {st st' : Phase}

/-- The context between brackets of no kind, in raw mode. -/
def rawCtx : Ctx := ⟨[], false, true⟩

/-- The next token is the same in the other mode. -/
def Twin (cx : Ctx) (v : Bool) (text : List Char) : Prop := ∀ pos, ∃ t pos' r' cx',
  matchSpecialToken ⟨(raNext text).2, cx, pos, .string, none⟩ (raNext text).1 = (some t, ⟨r', cx', pos', .string, none⟩) ∧
  matchSpecialToken ⟨(raNext text).2, cx.setRawModeValue v, pos, .string, none⟩ (raNext text).1 =
    (some t, ⟨r', cx'.setRawModeValue v, pos', .string, none⟩)

theorem loop_turn {z : Bool} (ht : Twin cx z text) : ∀ (w : List Char) (f : Nat) (pos st : Pos) (acc : List Char), Runs cx w text →
    w.length + 1 ≤ f →
    ∃ t l', emitLoop f ⟨w ++ text, cx, pos, .string, none⟩ (some (st, acc)) = some (t, l') ∧ t.type = .string ∧ t.origin = acc ++ w ∧
      Lx (cx.setRawModeValue z) .string text (setRawMode l' z)
  | [], f, pos, st, acc, _, hf => by
    obtain ⟨f, rfl⟩ : ∃ g, f = g + 1 := ⟨f - 1, by omega⟩
    obtain ⟨t, pos', r', cx', g1, g2⟩ := ht { pos with col := pos.col + 1 }
    refine ⟨⟨.string, st, ⟨pos.row, pos.col + 1 - 1⟩, acc⟩, ⟨r', cx', pos', .string, some t⟩, ?_, rfl, by simp,
      ⟨text, cx.setRawModeValue z, pos, .string, none⟩, ⟨rfl, rfl, rfl, rfl⟩, ?_⟩
    · unfold emitLoop
      simp only [List.nil_append, g1]
    · have e1 : lexNext (setRawMode ⟨r', cx', pos', .string, some t⟩ z) = (t, ⟨r', cx'.setRawModeValue z, pos', t.type, none⟩) := by
        simp [lexNext, nextFuel, setRawMode]
      rw [e1]
      refine (lexNext_loop rfl ?_).symm
      unfold emitLoop
      simp only [g2]
  | c :: w, f, pos, st, acc, hw, hf => by
    obtain ⟨f, rfl⟩ : ∃ g, f = g + 1 := ⟨f - 1, by omega⟩
    obtain ⟨t, l', h1, h2, h3, h4⟩ := loop_turn ht w f { pos with col := pos.col + 1 } st (acc ++ [c]) hw.2
      (by simp at hf; omega)
    refine ⟨t, l', ?_, h2, by simpa using h3, h4⟩
    rw [← h1]
    conv_lhs => unfold emitLoop
    simp only [List.cons_append, raNext, hw.1 { pos with col := pos.col + 1 }]

theorem lex_turn {z : Bool} (h : Lx cx b (c :: w ++ text) l) (h1 : Passes cx b c (w ++ text)) (h2 : Runs cx w text)
    (ht : Twin cx z text) :
    (lexNext l).1.type = .string ∧ (lexNext l).1.origin = c :: w ∧ Lx (cx.setRawModeValue z) .string text (setRawMode (lexNext l).2 z) := by
  obtain ⟨l0, h0, hl⟩ := h
  rw [hl]
  obtain ⟨rest, ctx, pos, behind, prepared⟩ := l0
  obtain ⟨e1, e2, e3, e4⟩ := h0
  simp only at e1 e2 e3 e4
  subst e1 e2 e3 e4
  obtain ⟨t, l', g1, g2, g3, g4⟩ := loop_turn ht w (w ++ text).length.succ { pos with col := pos.col + 1 }
    { pos with col := pos.col + 1 } [c] h2 (by simp)
  have e1 : lexNext ⟨c :: w ++ text, ctx, pos, behind, none⟩ = (t, l') := by
    refine lexNext_loop rfl ?_
    rw [← g1]
    conv_lhs => unfold emitLoop
    simp only [List.cons_append, raNext, h1 { pos with col := pos.col + 1 }]
    rfl
  rw [e1]
  exact ⟨g2, by simpa using g3, g4⟩

/-- A string after which the mode may be another one. -/
theorem FrontIn.turn (h : FrontIn s [] st cx p b (c :: w ++ text)) (h1 : Passes cx b c (w ++ text)) (h2 : Runs cx w text)
    (hst : ∀ r, st.step .string r = st') (ht : Twin cx st'.isRaw text) :
    (toks s p).type = .string ∧ (toks s p).origin = c :: w ∧ FrontIn s [] st' (cx.setRawModeValue st'.isRaw) (p + 1) .string text := by
  have h1 := lex_turn h.lx h1 h2 ht
  rw [← toks_pos h.pos] at h1
  refine ⟨h1.1, h1.2.1, h.step (by rw [h1.1]; exact hst _) h1.2.2 (h.flat.step h.pos (by simp [NoBracket, h1.1]) (fun _ => rfl))⟩

theorem twin_soft (hc : cx = rawCtx ∨ cx = newCtx ∨ cx = tagCtx) (h : Soft text) : Twin cx z text := by
  intro pos
  cases h with
  | space => rcases hc with rfl | rfl | rfl <;> cases z <;> exact ⟨_, _, _, _, rfl, rfl⟩
  | line => rcases hc with rfl | rfl | rfl <;> cases z <;> exact ⟨_, _, _, _, rfl, rfl⟩
  | eof => rcases hc with rfl | rfl | rfl <;> cases z <;> exact ⟨_, _, _, _, rfl, rfl⟩
  | @cr r =>
    cases r with
    | nil => rcases hc with rfl | rfl | rfl <;> cases z <;> exact ⟨_, _, _, _, rfl, rfl⟩
    | cons c r =>
      by_cases hn : c = '\n'
      · subst hn; rcases hc with rfl | rfl | rfl <;> cases z <;> exact ⟨_, _, _, _, rfl, rfl⟩
      · refine ⟨⟨.lineBreak, pos, pos, ['\r']⟩, ⟨pos.row + 1, 0⟩, c :: r, cx.lineBreakRevertContext, ?_, ?_⟩ <;>
        rcases hc with rfl | rfl | rfl <;> cases z <;>
        simp [raNext, matchSpecialToken, rawMatching, Ctx.currentType, blockMatching, commentMatching, tagMatching, baseMatching, lookahead, hn,
          newCtx, rawCtx, tagCtx, Ctx.lineBreakRevertContext, Ctx.setRawModeValue]

theorem passes_raw (h : c ∉ [' ', '\t', '\n', '\r', '﻿']) : Passes rawCtx b c r := by
  intro pos
  show baseMatching _ _ = _
  simp only [List.mem_cons, List.not_mem_nil, or_false, not_or] at h
  unfold baseMatching
  split <;> simp_all

theorem runs_raw : ∀ {w : List Char}, (∀ c ∈ w, c ∉ [' ', '\t', '\n', '\r', '﻿']) → Runs rawCtx w text
  | [], _ => trivial
  | c :: _, h => ⟨passes_raw (h c (by simp)), runs_raw (fun e he => h e (by simp [he]))⟩

/-- A word in raw mode. -/
theorem FrontIn.ink (h : FrontIn s [] st rawCtx p b (w ++ text)) (hw : Ink w) (ht : Soft text) (hst : ∀ r, st.step .string r = st') :
    (toks s p).type = .string ∧ (toks s p).origin = w ∧ FrontIn s [] st' (rawCtx.setRawModeValue st'.isRaw) (p + 1) .string text := by
  obtain ⟨hn, hc⟩ := hw
  cases w with
  | nil => exact absurd rfl hn
  | cons c w =>
    exact h.turn (passes_raw (hc c (by simp))) (runs_raw fun e he => hc e (by simp [he])) hst (twin_soft (.inl rfl) ht)

theorem emits_rawSpace : Emits rawCtx b (' ' :: r) .space [' '] rawCtx r := fun _ => ⟨_, _, rfl, rfl, rfl⟩

theorem emits_rawBreak (h : BlockText.Break u r) : ∃ o, Emits rawCtx b (u ++ r) .lineBreak o rawCtx r := by
  cases h with
  | lf => exact ⟨_, fun _ => ⟨_, _, rfl, rfl, rfl⟩⟩
  | crlf => exact ⟨_, fun _ => ⟨_, _, rfl, rfl, rfl⟩⟩
  | cr h =>
    refine ⟨['\r'], fun pos => ?_⟩
    cases r with
    | nil => exact ⟨_, _, rfl, rfl, rfl⟩
    | cons c r =>
      have hc : c ≠ '\n' := by simpa using h
      refine ⟨⟨.lineBreak, pos, pos, ['\r']⟩, ⟨pos.row + 1, 0⟩, ?_, rfl, rfl⟩
      simp [raNext, matchSpecialToken, rawMatching, baseMatching, lookahead, hc, rawCtx, Ctx.lineBreakRevertContext]
      rfl

/-- Spaces in raw mode. -/
theorem FrontIn.rawSpaces (hst : ∀ r, st.step .space r = st) (hraw : st.isRaw = true) : ∀ {j p : Nat} {b : TokType},
    FrontIn s [] st rawCtx p b (sp j ++ r) →
    (∀ i < j, (toks s (p + i)).type = .space ∧ (toks s).raw (p + i + 1) = true) ∧
    ∃ b', FrontIn s [] st rawCtx (p + j) b' r
  | 0, p, b, h => ⟨fun i hi => by omega, b, h⟩
  | j + 1, p, b, h => by
    obtain ⟨h1, -, h3⟩ := FrontIn.emit (r' := sp j ++ r) h emits_rawSpace (by simp [Curly]) (hst _)
    rw [hraw] at h3
    obtain ⟨g1, b', g2⟩ := FrontIn.rawSpaces hst hraw (j := j) h3
    refine ⟨fun i hi => ?_, b', by rw [show p + (j + 1) = p + 1 + j from by omega]; exact g2⟩
    cases i with
    | zero =>
      refine ⟨h1, ?_⟩
      show (conf s p).2.isRaw = true
      rw [show (conf s p).2 = _ from h3.st, hraw]
    | succ i =>
      rw [show p + (i + 1) = p + 1 + i from by omega]
      exact g1 i (by omega)

theorem FrontIn.raw (h : FrontIn s [] st cx (p + 1) b text) (hst : st.isRaw = true) : (toks s).raw (p + 1) = true := by
  show (conf s p).2.isRaw = true
  rw [show (conf s p).2 = _ from h.st]
  exact hst

/-! ### Characters -/

theorem alphanum_chars (h : c.isAlphanum = true) : (YamlChar.isDigit c || YamlChar.isASCIILetter c) = true := by
  simp only [Char.isAlphanum, Char.isAlpha, Char.isUpper, Char.isLower, Char.isDigit, Bool.or_eq_true, Bool.and_eq_true,
    decide_eq_true_eq] at h
  simp only [YamlChar.isDigit, YamlChar.isASCIILetter, Bool.or_eq_true, Bool.and_eq_true, decide_eq_true_eq]
  rcases h with (⟨h1, h4⟩ | ⟨h1, h4⟩) | ⟨h1, h4⟩
  · exact .inr (.inl ⟨h1, h4⟩)
  · exact .inr (.inr ⟨h1, h4⟩)
  · exact .inl ⟨h1, h4⟩

theorem alphanum_name (h : c.isAlphanum = true) : nameChar c = true := by simp [nameChar, h]

theorem prefix_char (h : c.isAlphanum = true ∨ c ∈ "-#;/?:@&=+$,_.!~*'[]".toList) :
    (YamlChar.isDigit c || YamlChar.isASCIILetter c || YamlChar.isFlowIndicatorChar c || YamlChar.uriOnlyChars.contains c) = true ∧
    c ≠ '%' ∧ c ∉ [' ', '\t', '\n', '\r', '\uFEFF'] ∧
    (c ∉ ['-', ',', '!', '[', ']'] → (YamlChar.isDigit c || YamlChar.isASCIILetter c || YamlChar.tagOnlyChars.contains c) = true) := by
  rcases h with h | h
  · have h2 := alphanum_chars h
    have h3 := (nameChar_plain (alphanum_name h)).1
    rw [h2]
    simp only [forbidden, List.mem_cons, List.not_mem_nil, or_false, not_or] at h3
    simp [h3]
  · revert c
    decide +kernel

theorem uriString : ∀ {w : List Char}, (∀ c ∈ w, c.isAlphanum = true ∨ c ∈ "-#;/?:@&=+$,_.!~*'[]".toList) → YamlChar.isURI w = true
  | [], _ => rfl
  | c :: w, h => by
    have ih := uriString (w := w) (fun e he => h e (by simp [he]))
    obtain ⟨h1, h2, -, -⟩ := prefix_char (h c (by simp))
    unfold YamlChar.isURI
    split
    · cases ‹_ = []›
    · rename_i heq; injection heq with h4 h5; exact absurd h4 h2
    · rename_i heq; injection heq with h4 h5; exact absurd h4 h2
    · rename_i heq
      injection heq with h4 h5
      subst h4 h5
      rw [h1, ih]
      rfl

theorem tagPrefix (h : TagPrefix w) : Ink w ∧ w ≠ [] ∧ YamlChar.conformsCharSet (w.take 1) .tag = true ∧ YamlChar.conformsCharSet w .uri = true := by
  obtain ⟨hc, c, r, rfl, h1⟩ := h
  obtain ⟨-, h2, -, h4⟩ := prefix_char (hc c (by simp))
  refine ⟨⟨by simp, fun e he => (prefix_char (hc e he)).2.2.1⟩, by simp, ?_, uriString hc⟩
  have := h4 h1
  show YamlChar.isTagString [c] = true
  unfold YamlChar.isTagString
  split
  · cases ‹_ = []›
  · rename_i heq; injection heq with h4 h5; exact absurd h4 h2
  · rename_i heq; injection heq with h4 h5; exact absurd h4 h2
  · rename_i heq
    injection heq with h4 h5
    subst h4 h5
    rw [this]
    rfl

theorem unicode_digit (h : c.isDigit = true) : unicodeIsDigit c = true := by
  simp only [Char.isDigit, Bool.and_eq_true, decide_eq_true_eq] at h
  have h1 : 48 ≤ c.toNat := by simpa [UInt32.le_iff_toNat_le] using h.1
  have h2 : c.toNat ≤ 57 := by simpa [UInt32.le_iff_toNat_le] using h.2
  unfold unicodeIsDigit
  rw [Bool.or_eq_true, List.any_eq_true]
  refine .inr ⟨0x30, by decide, ?_⟩
  simp only [Bool.and_eq_true, decide_eq_true_eq]
  omega

theorem digits_fold : ∀ {a : List Char} {k : Nat}, (∀ c ∈ a, c.isDigit = true) → k = 1 ∨ k = 3 →
    a.foldl (fun st c => st.bind (versionStep · c)) (some k) = some k
  | [], _, _, _ => rfl
  | c :: a, k, h, hk => by
    have h1 := unicode_digit (h c (by simp))
    have h2 : c ≠ '.' := by rintro rfl; exact absurd (h '.' (by simp)) (by decide)
    rw [List.foldl_cons]
    have : (some k).bind (versionStep · c) = some k := by
      rcases hk with rfl | rfl <;> simp [versionStep, h1, h2]
    rw [this]
    exact digits_fold (fun e he => h e (by simp [he])) hk

theorem version_ok (ha : Numeral u) (hb : Numeral v) : isCorrectYAMLVersion (u ++ '.' :: v) = true := by
  obtain ⟨h1, h2⟩ := ha
  obtain ⟨h3, h4⟩ := hb
  cases u with
  | nil => exact absurd rfl h1
  | cons c u =>
    cases v with
    | nil => exact absurd rfl h3
    | cons x v =>
      have g1 := unicode_digit (h2 c (by simp))
      have g2 := unicode_digit (h4 x (by simp))
      unfold isCorrectYAMLVersion
      rw [decide_eq_true_eq, List.cons_append, List.foldl_cons, List.foldl_append]
      rw [show (some 0).bind (versionStep · c) = some 1 from by simp [versionStep, g1], digits_fold (fun e he => h2 e (by simp [he])) (.inl rfl),
        List.foldl_cons, show (some 1).bind (versionStep · '.') = some 2 from rfl, List.foldl_cons,
        show (some 2).bind (versionStep · x) = some 3 from by simp [versionStep, g2]]
      exact digits_fold (fun e he => h4 e (by simp [he])) (.inr rfl)

theorem digit_name (h : c.isDigit = true) : nameChar c = true := alphanum_name (by simp [Char.isAlphanum, h])

theorem version_word (ha : Numeral u) (hb : Numeral v) : PlainTree.Word (u ++ '.' :: v) := by
  obtain ⟨h1, h2⟩ := ha
  obtain ⟨h3, h4⟩ := hb
  obtain ⟨c, r, rfl⟩ := List.exists_cons_of_ne_nil h1
  have hc := h2 c (by simp)
  refine ⟨fun e he => ?_, ⟨c, _, rfl, (nameChar_plain (digit_name hc)).2.1⟩, ?_, ?_⟩
  · simp only [List.mem_append, List.mem_cons] at he
    rcases he with he | rfl | he
    · exact (nameChar_plain (digit_name (h2 e (by simpa using he)))).1
    · decide
    · exact (nameChar_plain (digit_name (h4 e he))).1
  · intro hl
    rw [List.getLast?_append, List.getLast?_cons, List.getLast?_eq_some_getLast h3] at hl
    simp only [Option.getD_some, Option.some_or, Option.some.injEq] at hl
    have := h4 _ (List.getLast_mem h3)
    rw [hl] at this
    exact absurd this (by decide)
  · intro hm
    simp only [markers, List.mem_cons, List.not_mem_nil, or_false, List.cons_append, List.cons.injEq] at hm
    rcases hm with hm | hm | hm | hm <;> rw [hm.1] at hc <;> exact absurd hc (by decide)

/-! ### Directives -/

theorem twin_emits (he : Emits cx .string text ty o cx' r') (h1 : cx.raw = false) (h2 : cx'.raw = false) : Twin cx false text := by
  intro pos
  obtain ⟨t, pos', g1, -, -⟩ := he pos
  have e1 : cx.setRawModeValue false = cx := by cases cx; simp at h1; subst h1; rfl
  have e2 : cx'.setRawModeValue false = cx' := by cases cx'; simp at h2; subst h2; rfl
  exact ⟨t, pos', r', cx', g1, by rw [e1, e2]; exact g1⟩

theorem emits_percent : Emits newCtx b ('%' :: r) .directive ['%'] newCtx r := fun _ => ⟨_, _, rfl, rfl, rfl⟩

theorem soft_take (h : ∀ c ∈ w, c ∉ [' ', '\t', '\n', '\r', '\uFEFF']) (ht : Soft text) :
    (w ++ text).takeWhile (fun c => c ∉ [' ', '\t', '\n', '\r', '\uFEFF']) = w := by
  rw [List.takeWhile_append_of_pos (by intro c hc; exact decide_eq_true (h c hc))]
  cases ht <;> simp

theorem softSp (hi : 0 < i) : Soft (sp i ++ r) := by
  obtain ⟨i, rfl⟩ : ∃ k, i = k + 1 := ⟨i - 1, by omega⟩
  exact .space

theorem breakSoft (h : BlockText.Break u g) : Soft (u ++ r) := by cases h <;> constructor

/-- `%` and the name. -/
theorem Front.percent (h : Front s newCtx p b ('%' :: (w ++ text))) (hw : Ink w) (ht : Soft text)
    (hst : ∀ r, (Phase.name (dirKind (w ++ text))).step .string r = st') :
    Named (toks s) p w ∧ FrontIn s [] st' (rawCtx.setRawModeValue st'.isRaw) (p + 2) .string text := by
  obtain ⟨h1, -, h3⟩ := FrontIn.emit (st' := .name (dirKind (w ++ text))) h.toFrontIn emits_percent (by simp [Curly]) (by simp [Phase.step])
  obtain ⟨g1, g2, g3⟩ := FrontIn.ink h3 hw ht hst
  exact ⟨⟨h1, h3.raw rfl, g1, g2⟩, g3⟩

theorem Front.of (h : FrontIn s [] .normal cx p b text) : Front s cx p b text := ⟨h⟩

theorem Front.yamlDir (h : Front s newCtx p b ('%' :: 'Y' :: 'A' :: 'M' :: 'L' :: (sp i ++ (u ++ '.' :: (v ++ (w ++ r)))))) (hi : 0 < i)
    (hu : Numeral u) (hv : Numeral v) (hw : BlockText.Eol false w) {k : Nat} (hr : LineStart k r) :
    ∃ q q', Dir (toks s) p q ∧ Eol (toks s) q q' ∧ After s q' r := by
  have ink : Ink ['Y', 'A', 'M', 'L'] := ⟨by simp, by decide⟩
  have soft : Soft (sp i ++ (u ++ '.' :: (v ++ (w ++ r)))) := softSp hi
  have hk : dirKind (['Y', 'A', 'M', 'L'] ++ (sp i ++ (u ++ '.' :: (v ++ (w ++ r))))) = 0 := by
    unfold dirKind; rw [soft_take ink.chars soft]; simp
  obtain ⟨h1, h2⟩ := Front.percent (w := ['Y', 'A', 'M', 'L']) (text := sp i ++ (u ++ '.' :: (v ++ (w ++ r)))) (st' := .normal) h ink soft (by rw [hk]; intro r; rfl)
  have h2 : Front s newCtx (p + 2) .string _ := .of h2
  obtain ⟨g1, g2⟩ := h2.spaces .block
  rw [if_neg (by omega), if_neg (by omega)] at g2
  have e : u ++ '.' :: (v ++ (w ++ r)) = (u ++ '.' :: v) ++ (w ++ r) := by simp
  rw [e] at g2
  obtain ⟨k1, k2, k3⟩ := g2.word (version_word hu hv) (eol_parts hw (by simp)).1.halt
  obtain ⟨q', m1, m2⟩ := k3.eol hw (by simp) hr .block
  refine ⟨_, q', .yaml h1 h2.calm ⟨fun i hi => (g1 i hi).1, by simp [k1], by simp [k1]⟩ k1 (by rw [k2]; exact version_ok hu hv) k3.calm, m1, m2⟩

theorem Sp.of {W : Toks} (h : ∀ i < j, (W (p + i)).type = .space ∧ Calm W (p + i)) (h2 : (W (p + j)).type = ty) (h3 : ty ≠ .space) (h4 : ty ≠ .tab) :
    Sp W p j := ⟨h, by rw [h2]; exact h3, by rw [h2]; exact h4⟩

theorem FrontIn.handle (h : FrontIn s [] .handle newCtx p b (u ++ (sp i ++ r))) (hu : TagHandle u) (hi : 0 < i) :
    (toks s p).type = .tag ∧ ∃ q b', Handle (toks s) p q ∧ FrontIn s [] .handled tagCtx q b' (sp i ++ r) := by
  cases hu with
  | one =>
    obtain ⟨h1, -, h3⟩ := FrontIn.emit (st' := .handled) h emits_bang (by simp [Curly]) (by simp [Phase.step])
    obtain ⟨i, rfl⟩ : ∃ k, i = k + 1 := ⟨i - 1, by omega⟩
    have h3 : FrontIn s [] .handled tagCtx (p + 1) .tag (sp (i + 1) ++ r) := h3
    obtain ⟨g1, -, -⟩ := FrontIn.emit (st' := .prefix) h3 (emits_space .tag) (by simp [Curly]) (by simp [Phase.step])
    exact ⟨h1, p + 1, .tag, .one h1 (h3.calm rfl) g1, h3⟩
  | two =>
    obtain ⟨h1, -, h3⟩ := FrontIn.emit (st' := .handled) h emits_bang (by simp [Curly]) (by simp [Phase.step])
    obtain ⟨g1, -, g3⟩ := FrontIn.emit (st' := .handled) h3 emits_bang2 (by simp [Curly]) (by simp [Phase.step])
    exact ⟨h1, p + 2, .tag, .two h1 (h3.calm rfl) g1 (g3.calm rfl), g3⟩
  | @named w hn hw =>
    obtain ⟨c, w, rfl⟩ := List.exists_cons_of_ne_nil hn
    have hc : ∀ e ∈ c :: w, nameChar e = true := fun e he => by
      rcases hw e he with h | rfl
      · exact alphanum_name h
      · decide
    obtain ⟨h1, -, h3⟩ := FrontIn.emit (st' := .handled) h emits_bang (by simp [Curly]) (by simp [Phase.step])
    have h3 : FrontIn s [] .handled tagCtx (p + 1) .tag _ := h3
    obtain ⟨g1, g2, g3⟩ := FrontIn.turn (c := c) (w := w) (text := '!' :: (sp i ++ r)) (st' := .handled)
      (by simpa using h3) (passes_tag (hc c (by simp))) (runs_tag fun e he => hc e (by simp [he])) (by intro r; simp [Phase.step])
      (twin_emits emits_bang2 rfl rfl)
    obtain ⟨k1, -, k3⟩ := FrontIn.emit (st' := .handled) g3 emits_bang2 (by simp [Curly]) (by simp [Phase.step])
    refine ⟨h1, p + 3, .tag, .named h1 (h3.calm rfl) ?_ (g3.calm rfl) k1 (k3.calm rfl), k3⟩
    rw [stringIn, g1, g2]
    simp only [decide_true, Bool.true_and, YamlChar.conformsCharSet, YamlChar.isWord, List.all_eq_true]
    intro e he
    rcases hw e he with h | rfl
    · rw [alphanum_chars h]; rfl
    · decide

/-- The end of the line behind a prefix. -/
theorem FrontIn.prefixEol (h : FrontIn s [] .prefixed rawCtx p b (w ++ r)) (hw : BlockText.Eol false w) {k : Nat} (hr : LineStart k r) :
    ∃ q, Eol (toks s) p q ∧ After s q r := by
  cases hw with
  | @brk _ i u a g hu hi ha hg =>
    cases i with
    | zero =>
      obtain rfl : u = [] := by rcases hi with hi | hi; omega; exact hi
      obtain ⟨o, he⟩ := emits_rawBreak (b := b) (break_append ha (lineStart_head hr))
      obtain ⟨h1, -, h3⟩ := FrontIn.emit (st' := .normal) (text := a ++ (g ++ r)) (by simpa [sp] using h) he (by simp [Curly]) rfl
      obtain ⟨q, m1, m2⟩ := (Front.of h3).gap hg (by simp) hr rfl (solW_break h.pos h1)
      exact ⟨q, .line (j := 0) ⟨fun i hi => by omega, by simp [h1], by simp [h1]⟩ (.none (by simp [isBreakOrEOF, h1])) (.inr rfl) h1 m1, m2⟩
    | succ i =>
      obtain ⟨h1, -, h3⟩ := FrontIn.emit (st' := .normal) (text := ' ' :: (sp i ++ (u ++ (a ++ (g ++ r)))))
        (by simpa [sp, List.replicate_succ] using h) emits_rawSpace (by simp [Curly]) rfl
      obtain ⟨c, cx', b', g1, g2, g3, g4, -⟩ := Front.rest (cx := newCtx) (text := a ++ (g ++ r)) (break_brink ha) hu .block (.inr (.inr ⟨rfl, rfl⟩)) (.of h3)
      obtain ⟨k1, k2, k3⟩ := g3.break g4 (break_append ha (lineStart_head hr))
      obtain ⟨q, m1, m2⟩ := k3.gap hg (by simp) hr rfl k2
      rw [show p + 1 + i = p + (i + 1) from by omega] at g2
      refine ⟨q, .line (j := i + 1) ⟨fun e he => ?_, ?_, ?_⟩ g2 (.inl (by omega)) k1 m1, m2⟩
      · cases e with
        | zero => exact ⟨h1, h3.calm rfl⟩
        | succ e => have := g1.1 e (by omega); rwa [show p + 1 + e = p + (e + 1) from by omega] at this
      · have := g1.2.1; rwa [show p + 1 + i = p + (i + 1) from by omega] at this
      · have := g1.2.2; rwa [show p + 1 + i = p + (i + 1) from by omega] at this

theorem Front.tagDir (h : Front s newCtx p b ('%' :: 'T' :: 'A' :: 'G' :: (sp i ++ (u ++ (sp j ++ (t ++ (w ++ r))))))) (hi : 0 < i)
    (hu : TagHandle u) (hj : 0 < j) (ht : TagPrefix t) (hw : BlockText.Eol false w) {k : Nat} (hr : LineStart k r) :
    ∃ q q', Dir (toks s) p q ∧ Eol (toks s) q q' ∧ After s q' r := by
  have ink : Ink ['T', 'A', 'G'] := ⟨by simp, by decide⟩
  have soft : Soft (sp i ++ (u ++ (sp j ++ (t ++ (w ++ r))))) := softSp hi
  have hk : dirKind (['T', 'A', 'G'] ++ (sp i ++ (u ++ (sp j ++ (t ++ (w ++ r)))))) = 1 := by
    unfold dirKind; rw [soft_take ink.chars soft]; simp
  obtain ⟨h1, h2⟩ := Front.percent (w := ['T', 'A', 'G']) (text := sp i ++ (u ++ (sp j ++ (t ++ (w ++ r))))) (st' := .handle) h ink soft (by rw [hk]; intro r; rfl)
  obtain ⟨g1, g2⟩ := FrontIn.spaced (cx := newCtx) rfl (fun _ => by simp [Phase.step]) (fun b r => ⟨_, emits_space .block, rfl⟩) h2
  obtain ⟨k0, q, b', k1, k2⟩ := FrontIn.handle g2 hu hj
  obtain ⟨j, rfl⟩ : ∃ k, j = k + 1 := ⟨j - 1, by omega⟩
  obtain ⟨m1, -, m3⟩ := FrontIn.emit (st' := .prefix) (r' := sp j ++ (t ++ (w ++ r))) k2 (emits_space .tag) (by simp [Curly]) (by simp [Phase.step])
  obtain ⟨n1, b2, n2⟩ := FrontIn.rawSpaces (fun _ => by simp [Phase.step]) rfl m3
  obtain ⟨p1, p2, p3, p4⟩ := tagPrefix ht
  obtain ⟨o1, o2, o3⟩ := FrontIn.ink (st' := .prefixed) n2 p1 (eol_parts hw (by simp)).1 (fun _ => by simp [Phase.step])
  obtain ⟨q', x1, x2⟩ := FrontIn.prefixEol o3 hw hr
  rw [show q + 1 + j = q + (j + 1) from by omega] at o1 o2 x1 o3
  refine ⟨_, q', .tag h1 (h2.calm rfl) (.of g1 k0 (by simp) (by simp)) hi k1 (.of (j := j + 1) (ty := .string) ?_ o1 (by simp) (by simp)) (by omega) o1
    (by rw [o2]; exact p2) (by rw [o2]; exact p3) (by rw [o2]; exact p4) (o3.raw rfl), x1, x2⟩
  intro e he
  cases e with
  | zero => exact ⟨m1, m3.raw rfl⟩
  | succ e => have := n1 e (by omega); rwa [show q + 1 + e = q + (e + 1) from by omega] at this

theorem FrontIn.params (ha : BlockText.Break v (g ++ r)) (hu : Params u) : ∀ {p : Nat} {b : TokType},
    FrontIn s [] .words rawCtx p b (u ++ (v ++ (g ++ r))) → solW (toks s) p = false →
    ∃ q b', Words ((toks s).inMode true) p q ∧ FrontIn s [] .words rawCtx q b' (v ++ (g ++ r)) := by
  induction hu with
  | nil =>
    intro p b h hs
    obtain ⟨o, he⟩ := emits_rawBreak (b := b) ha
    obtain ⟨h1, -, h3⟩ := FrontIn.emit (st' := .normal) h he (by simp [Curly]) (by simp [Phase.step])
    exact ⟨p, b, .stop (.of (ty := .lineBreak) (fun i hi => by omega) h1 (by simp) (by simp)) hs (by
      show isOpen (toks s p) = false
      simp [isOpen, h1]), h⟩
  | @cons i w u hi hw hu ih =>
    intro p b h hs
    obtain ⟨h1, b1, h2⟩ := FrontIn.rawSpaces (st := .words) (r := w ++ (u ++ (v ++ (g ++ r)))) (fun _ => by simp [Phase.step]) rfl (by simpa using h)
    have soft : Soft (u ++ (v ++ (g ++ r))) := by
      cases hu with
      | nil => rw [List.nil_append]; exact breakSoft ha
      | cons hi => rw [List.append_assoc]; exact softSp hi
    obtain ⟨g1, g2, g3⟩ := FrontIn.ink (st' := .words) h2 hw soft (fun _ => by simp [Phase.step])
    obtain ⟨q, b', k1, k2⟩ := ih g3 (solW_not h2.pos (by simp [g1]) (by simp [g1]))
    exact ⟨q, b', .word (.of h1 g1 (by simp) (by simp)) hi g1 (g3.raw rfl) k1, k2⟩

theorem Front.otherDir (h : Front s newCtx p b ('%' :: (w ++ (u ++ (v ++ (g ++ r)))))) (hw : Ink w) (h1 : w ≠ "YAML".toList)
    (h2 : w ≠ "TAG".toList) (hu : Params u) (hv : BlockText.Break v g) (hg : BlockText.Gap false g) {k : Nat} (hr : LineStart k r) :
    ∃ q q', Dir (toks s) p q ∧ Eol (toks s) q q' ∧ After s q' r := by
  have hv := break_append hv (lineStart_head hr)
  have h1 : w ≠ ['Y', 'A', 'M', 'L'] := h1
  have h2 : w ≠ ['T', 'A', 'G'] := h2
  have soft : Soft (u ++ (v ++ (g ++ r))) := by
    cases hu with
    | nil => rw [List.nil_append]; exact breakSoft hv
    | cons hi => rw [List.append_assoc]; exact softSp hi
  have hk : dirKind (w ++ (u ++ (v ++ (g ++ r)))) = 2 := by
    unfold dirKind; rw [soft_take hw.chars soft, if_neg h1, if_neg h2]
  obtain ⟨g1, g2⟩ := Front.percent (st' := .words) h hw soft (by rw [hk]; intro r; rfl)
  obtain ⟨q, b', k1, k2⟩ := FrontIn.params hv hu g2 (solW_not (by omega) (by simp [g1.type]) (by simp [g1.type]))
  obtain ⟨o, he⟩ := emits_rawBreak (b := b') hv
  obtain ⟨m1, -, m3⟩ := FrontIn.emit (st' := .normal) k2 he (by simp [Curly]) (by simp [Phase.step])
  obtain ⟨q', n1, n2⟩ := (Front.of m3).gap hg (by simp) hr rfl (solW_break k2.pos m1)
  exact ⟨q, q', .other g1 h1 h2 (g2.raw rfl) k1,
    .line (j := 0) ⟨fun i hi => by omega, by simp [m1], by simp [m1]⟩ (.none (by simp [isBreakOrEOF, m1])) (.inr rfl) m1 n1, n2⟩

theorem directive_start (h : BlockText.Directive u) : LineStart 1 (u ++ r) := by
  cases h <;> exact .inr ⟨0, _, _, rfl, by simp [Visible], by omega⟩

theorem directives_start (h : BlockText.Directives u) : LineStart 1 (u ++ r) := by
  cases h with
  | one h => exact directive_start h
  | more h _ => rw [List.append_assoc]; exact directive_start h

theorem After.directive (h : After s p (u ++ r)) (hu : BlockText.Directive u) {k : Nat} (hr : LineStart k r) :
    Line (toks s) p 0 ∧ ∃ q q', 1 ≤ q ∧ Dir (toks s) p q ∧ Eol (toks s) q q' ∧ After s q' r := by
  have key : Line (toks s) p 0 ∧ ∃ q q', Dir (toks s) p q ∧ Eol (toks s) q q' ∧ After s q' r := by
    cases hu with
    | @yaml i a b w hi ha hb hw =>
      obtain ⟨m1, b', m2, m3⟩ := After.enter (n := 0) (c := '%') h (by simp [Visible])
      exact ⟨m1, Front.yamlDir (i := i) (u := a) (v := b) (w := w) (by simpa using m3) hi ha hb hw hr⟩
    | @tag i j a t w hi ha hj ht hw =>
      obtain ⟨m1, b', m2, m3⟩ := After.enter (n := 0) (c := '%') h (by simp [Visible])
      exact ⟨m1, Front.tagDir (i := i) (u := a) (j := j) (t := t) (w := w) (by simpa using m3) hi ha hj ht hw hr⟩
    | @other n a b g hn h1 h2 ha hb hg =>
      obtain ⟨m1, b', m2, m3⟩ := After.enter (n := 0) (c := '%') h (by simp [Visible])
      exact ⟨m1, Front.otherDir (w := n) (u := a) (v := b) (g := g) (by simpa using m3) hn h1 h2 ha hb hg hr⟩
  obtain ⟨h1, q, q', h2, h3, h4⟩ := key
  exact ⟨h1, q, q', by have := h2.lt; omega, h2, h3, h4⟩

theorem After.directives (hu : BlockText.Directives u) {k : Nat} (hr : LineStart k r) : ∀ {p : Nat}, After s p (u ++ r) →
    Line (toks s) p 0 ∧ ∃ q, Dirs (toks s) p q ∧ After s q r := by
  induction hu with
  | one h =>
    intro p ha
    obtain ⟨h1, q, q', h2, h3, h4, h5⟩ := ha.directive h hr
    exact ⟨h1, q', .one h2 h3 h4, h5⟩
  | more h hu ih =>
    intro p ha
    rw [List.append_assoc] at ha
    obtain ⟨h1, q, q', h2, h3, h4, h5⟩ := ha.directive h (directives_start hu)
    obtain ⟨-, q2, g1, g2⟩ := ih h5
    exact ⟨h1, q2, .more h2 h3 h4 g1, g2⟩

end Verif.Parser
