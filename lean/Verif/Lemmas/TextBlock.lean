import Verif.Lemmas.LexLiteral
import Verif.Lemmas.LexFlow

/-!
The tokens of texts in block style: scalars, properties and collections.
-/

set_option linter.unusedSimpArgs false
set_option linter.unusedSectionVars false

namespace Verif.Parser

open Verif.Token Verif.Lexer Verif.Ast Verif.PlainTree
open Verif.BlockText (sp Remark Name nameChar tidy tidies absence)

variable {b ty : TokType} {text r w t u v g : List Char} {l : Lexer} {c x : Char} {cx : Ctx} {d z : Bool} {s : Lexer} {p q j i n : Nat}
variable {e y : Node} {es : List Node} {st : List CtxType} {ks : List TokType}

/-! ### What follows a scalar -/

/-- Spaces, and the end of the line, a comment or a colon. -/
inductive Shut : List Char → Prop
  | eof {j : Nat} : Shut (sp j)
  | line {j : Nat} {r : List Char} : Shut (sp j ++ '\n' :: r)
  | cr {j : Nat} {r : List Char} : Shut (sp j ++ '\r' :: r)
  | remark {j : Nat} {r : List Char} : Shut (sp (j + 1) ++ '#' :: r)
  | colon {j : Nat} {r : List Char} : blankOrEOF r.head? = true → Shut (sp j ++ ':' :: r)

theorem halt_sp (h : Halt text) : Halt (sp j ++ text) := by
  cases j with
  | zero => exact h
  | succ j => exact .space

theorem Shut.halt (h : Shut text) : Halt text := by
  cases h with
  | @eof j => simpa using halt_sp (j := j) .eof
  | line => exact halt_sp .line
  | cr => exact halt_sp .cr
  | remark => exact .space
  | colon h => exact halt_sp (.colon h)

theorem Shut.stop (h : Shut text) (hf : Front s newCtx p b text) : ∃ j, Sp (toks s) p j ∧ (toks s (p + j)).type ≠ .string := by
  have key : ∀ {j text ty o cx' r'}, Front s newCtx p b (sp j ++ text) →
      Emits newCtx (if j = 0 then b else .space) text ty o cx' r' → Plainly ty → ty ≠ .space → ty ≠ .tab → ty ≠ .string →
      ∃ j, Sp (toks s) p j ∧ (toks s (p + j)).type ≠ .string := by
    intro j text ty o cx' r' h he hp h1 h2 h3
    obtain ⟨g1, g2⟩ := h.spaces .block
    simp only [ite_self] at g2
    have g3 := g2.emit he hp
    exact ⟨j, ⟨fun i hi => (g1 i hi).1, by rw [g3.1]; exact h1, by rw [g3.1]; exact h2⟩, by rw [g3.1]; exact h3⟩
  cases h with
  | @eof j => exact key (j := j) (text := []) (by simpa using hf) (emits_eof .block) (by simp [Plainly]) (by simp) (by simp) (by simp)
  | line => exact key hf (emits_line .block) (by simp [Plainly]) (by simp) (by simp) (by simp)
  | @cr j r =>
    obtain ⟨o, r', he⟩ := emits_return (b := if j = 0 then b else .space) (r := r) .block
    exact key hf he (by simp [Plainly]) (by simp) (by simp) (by simp)
  | remark => exact key hf (emits_sharp rfl) (by simp [Plainly]) (by simp) (by simp) (by simp)
  | colon h => exact key hf (emits_colon h) (by simp [Plainly]) (by simp) (by simp) (by simp)

/-- A space, or the end of the line. -/
inductive Soft : List Char → Prop
  | space {r : List Char} : Soft (' ' :: r)
  | line {r : List Char} : Soft ('\n' :: r)
  | cr {r : List Char} : Soft ('\r' :: r)
  | eof : Soft []

theorem Soft.halt (h : Soft text) : Halt text := by cases h <;> constructor

theorem Soft.emits (h : Soft text) (hc : Lax cx) : ∃ ty o cx' r', Emits cx b text ty o cx' r' := by
  cases h with
  | space => exact ⟨_, _, _, _, emits_space hc⟩
  | line => exact ⟨_, _, _, _, emits_line hc.loose⟩
  | @cr r => obtain ⟨o, r', h⟩ := emits_return (b := b) (r := r) hc.loose; exact ⟨_, _, _, _, h⟩
  | eof => exact ⟨_, _, _, _, emits_eof hc.loose⟩

theorem soft_sp (h : Soft text) : Soft (sp j ++ text) := by
  cases j with
  | zero => exact h
  | succ j => exact .space

theorem soft_remark (hu : BlockText.Tail u) (hi : 0 < i ∨ u = []) (hb : Brink text) : Soft (sp i ++ (u ++ text)) := by
  rcases hi with hi | rfl
  · obtain ⟨i, rfl⟩ : ∃ k, i = k + 1 := ⟨i - 1, by omega⟩
    exact .space
  · exact soft_sp (by cases hb <;> constructor)

theorem shut_remark (hu : BlockText.Tail u) (hi : 0 < i ∨ u = []) (hb : Brink text) : Shut (sp i ++ (u ++ text)) := by
  cases hu with
  | none =>
    cases hb with
    | line => exact .line
    | cr => exact .cr
    | eof => simpa using Shut.eof (j := i)
  | remark =>
    obtain ⟨i, rfl⟩ : ∃ k, i = k + 1 := ⟨i - 1, by simp at hi; omega⟩
    exact .remark

theorem eol_parts (h : BlockText.Eol z u) (hz : z = true → r = []) : Soft (u ++ r) ∧ Shut (u ++ r) := by
  cases h with
  | @brk _ i u a g hu hi ha hg =>
    have e : sp i ++ (u ++ (a ++ g)) ++ r = sp i ++ (u ++ (a ++ (g ++ r))) := by simp
    rw [e]
    exact ⟨soft_remark hu hi (break_brink ha), shut_remark hu hi (break_brink ha)⟩
  | @last i u hu hi =>
    obtain rfl := hz rfl
    have e : sp i ++ u ++ [] = sp i ++ (u ++ []) := by simp
    rw [e]
    exact ⟨soft_remark hu hi .eof, shut_remark hu hi .eof⟩

theorem sep_soft (h : BlockText.Sep n u) : Soft (u ++ r) := by
  cases h with
  | mid => exact .space
  | lines h _ => rw [List.append_assoc]; exact (eol_parts h (by simp)).1

theorem Soft.blank (h : Soft text) : blankOrEOF text.head? = true := by cases h <;> rfl

/-! ### Names -/

theorem tagString : ∀ {w : List Char}, (∀ c ∈ w, nameChar c = true ∧ c ≠ '-') → YamlChar.isTagString w = true
  | [], _ => rfl
  | c :: w, h => by
    have ih := tagString (w := w) (fun e he => h e (by simp [he]))
    obtain ⟨h1, h2⟩ := h c (by simp)
    have h3 := (nameChar_plain h1).1
    have hk : (YamlChar.isDigit c || YamlChar.isASCIILetter c || YamlChar.tagOnlyChars.contains c) = true := by
      simp only [nameChar, Bool.or_eq_true, decide_eq_true_eq, h2, or_false] at h1
      rcases h1 with h1 | rfl
      · simp only [Char.isAlphanum, Char.isAlpha, Char.isUpper, Char.isLower, Char.isDigit, Bool.or_eq_true, Bool.and_eq_true,
          decide_eq_true_eq] at h1
        simp only [YamlChar.isDigit, YamlChar.isASCIILetter, Bool.or_eq_true, Bool.and_eq_true, decide_eq_true_eq]
        rcases h1 with (⟨h1, h4⟩ | ⟨h1, h4⟩) | ⟨h1, h4⟩
        · exact .inl (.inr (.inl ⟨h1, h4⟩))
        · exact .inl (.inr (.inr ⟨h1, h4⟩))
        · exact .inl (.inl ⟨h1, h4⟩)
      · decide
    unfold YamlChar.isTagString
    split
    · rfl
    · rename_i heq; injection heq with h4 h5; subst h4; exact absurd (by decide) h3
    · rename_i heq; injection heq with h4 h5; subst h4; exact absurd (by decide) h3
    · rename_i heq
      injection heq with h4 h5
      subst h4 h5
      rw [hk, ih]
      rfl

theorem name_tag {k : Tok} (h : Name w) (hd : '-' ∉ w) (h1 : k.type = .string) (h2 : k.origin = w) : stringIn .tag k = true := by
  simp only [stringIn, h1, h2, YamlChar.conformsCharSet, decide_true, Bool.true_and]
  exact tagString fun c hc => ⟨h.chars c hc, by rintro rfl; exact hd hc⟩

theorem passes_tag (h : nameChar c = true) : Passes tagCtx b c r := by
  intro pos
  show tagMatching _ _ = _
  have := (nameChar_plain h).1
  simp only [forbidden, List.mem_cons, List.not_mem_nil, or_false, not_or] at this
  unfold tagMatching baseMatching
  split <;> simp_all

theorem runs_tag : ∀ {w : List Char}, (∀ c ∈ w, nameChar c = true) → Runs tagCtx w text
  | [], _ => trivial
  | c :: _, h => ⟨passes_tag (h c (by simp)), runs_tag (fun e he => h e (by simp [he]))⟩

theorem Front.tagName (h : Front s tagCtx p b (w ++ text)) (hw : Name w) (ht : Soft text) :
    (toks s p).type = .string ∧ (toks s p).origin = w ∧ Front s tagCtx (p + 1) .string text := by
  obtain ⟨c, r, rfl, -⟩ := hw.first
  obtain ⟨ty, o, cx', r', he⟩ := ht.emits .tag
  exact h.string (passes_tag (hw.chars c (by simp))) (runs_tag fun e he => hw.chars e (by simp [he])) he

theorem Front.anchor (h : Front s newCtx p b ('&' :: (w ++ text))) (hb : b.mayPrecedeWord = true) (hw : Name w) (ht : Soft text) :
    Anch (toks s) p (.anchor w) (p + 2) ∧ Front s newCtx (p + 2) .string text ∧ solW (toks s) (p + 2) = false := by
  obtain ⟨h1, -, h3⟩ := h.emit (emits_amp hb) (by simp [Plainly])
  obtain ⟨g1, g2, g3⟩ := h3.word (Name.word hw) ht.halt
  exact ⟨⟨h.pos, h1, name_anchor hw g1 g2, by rw [g2], ⟨h3.calm, g3.calm⟩, rfl⟩, g3, solW_not h3.pos (by simp [g1]) (by simp [g1])⟩

theorem Front.alias (h : Front s newCtx p b ('*' :: (w ++ text))) (hb : b.mayPrecedeWord = true) (hw : Name w) (ht : Halt text) :
    Alia (toks s) p (.alias w) (p + 2) ∧ Front s newCtx (p + 2) .string text := by
  obtain ⟨h1, -, h3⟩ := h.emit (emits_star hb) (by simp [Plainly])
  obtain ⟨g1, g2, g3⟩ := h3.word (Name.word hw) ht
  exact ⟨⟨h.pos, h1, name_anchor hw g1 g2, by rw [g2], ⟨h3.calm, g3.calm⟩, rfl⟩, g3⟩

theorem Front.tag (h : Front s newCtx p b (u ++ text)) (hw : BlockText.Tag u w) (ht : Soft text) :
    ∃ q, TagAt (toks s) p (.tag w) q ∧ Front s tagCtx q .string text ∧ solW (toks s) q = false := by
  have soft_tag : ∀ {p b}, Front s tagCtx p b text → (toks s p).type ≠ .tag := by
    intro p b h
    cases ht with
    | space => simp [(h.emit (emits_space .tag) (by simp [Plainly])).1]
    | line => simp [(h.emit (emits_line .tag) (by simp [Plainly])).1]
    | @cr r =>
      obtain ⟨o, r', he⟩ := emits_return (b := b) (r := r) .tag
      simp [(h.emit he (by simp [Plainly])).1]
    | eof => simp [(h.emit (emits_eof .tag) (by simp [Plainly])).1]
  cases hw with
  | one hw hd =>
    obtain ⟨h1, -, h3⟩ := h.emit (r' := w ++ text) emits_bang (by simp [Plainly])
    obtain ⟨g1, g2, g3⟩ := h3.tagName hw ht
    have := TagAt.one h.pos h1 (name_tag hw hd g1 g2) (soft_tag g3) ⟨h3.calm, g3.calm⟩
    rw [g2] at this
    exact ⟨_, this, g3, solW_not h3.pos (by simp [g1]) (by simp [g1])⟩
  | two hw hd =>
    obtain ⟨h1, -, h3⟩ := h.emit (r' := '!' :: (w ++ text)) emits_bang (by simp [Plainly])
    obtain ⟨h4, -, h6⟩ := h3.emit emits_bang2 (by simp [Plainly])
    obtain ⟨g1, g2, g3⟩ := h6.tagName hw ht
    have := TagAt.two h.pos h1 h4 (name_tag hw hd g1 g2) ⟨h3.calm, h6.calm, g3.calm⟩
    rw [g2] at this
    exact ⟨_, this, g3, solW_not h6.pos (by simp [g1]) (by simp [g1])⟩

theorem Front.props (h : Front s newCtx p b (u ++ text)) (hb : b.mayPrecedeWord = true) (hu : BlockText.Props u y) (ht : Soft text) :
    ∃ q cx, Lax cx ∧ Front s cx q .string text ∧ solW (toks s) q = false ∧
      ∀ ab, absence ab = .nil → ∃ y', Props (toks s) ab p y' q ∧ tidy y' = y := by
  cases hu with
  | anchor ha =>
    obtain ⟨h1, h2, h3⟩ := h.anchor hb ha ht
    exact ⟨_, _, .block, h2, h3, fun ab hab => ⟨_, .anchor h1, by rw [tidy, hab]; rfl⟩⟩
  | tag hw =>
    obtain ⟨q, h1, h2, h3⟩ := h.tag hw ht
    exact ⟨_, _, .tag, h2, h3, fun ab hab => ⟨_, .tag h1, by rw [tidy, hab]; rfl⟩⟩
  | @anchorTag a u t j ha hw =>
    obtain ⟨h1, h2, h3⟩ := Front.anchor (text := sp (j + 1) ++ (u ++ text)) (by simpa using h) hb ha .space
    obtain ⟨g1, g2⟩ := h2.spaces .block
    simp only [Nat.add_eq_zero_iff, Nat.one_ne_zero, and_false, if_false] at g2
    obtain ⟨q, k1, k2, k3⟩ := g2.tag hw ht
    have hsg : (toks s (p + 2 + (j + 1))).type = .tag := by cases k1 <;> assumption
    exact ⟨_, _, .tag, k2, k3, fun ab hab => ⟨_, .anchorTag h1 ⟨fun i hi => (g1 i hi).1, by simp [hsg], by simp [hsg]⟩ k1,
      by simp [tidy, absence]⟩⟩
  | @tagAnchor a u t j hw ha =>
    obtain ⟨q, h1, h2, h3⟩ := Front.tag (text := sp (j + 1) ++ '&' :: (a ++ text)) (by simpa using h) hw .space
    obtain ⟨g1, g2⟩ := h2.spaces .tag
    simp only [Nat.add_eq_zero_iff, Nat.one_ne_zero, and_false, if_false] at g2
    obtain ⟨k1, k2, k3⟩ := g2.anchor rfl ha ht
    exact ⟨_, _, .block, k2, k3, fun ab hab => ⟨_, .tagAnchor h1 ⟨fun i hi => (g1 i hi).1, by simp [k1.sign], by simp [k1.sign]⟩ k1,
      by simp [tidy, absence]⟩⟩

/-! ### Scalars -/

theorem shut_quote (h : Shut text) : text.head? ≠ some (quoteChar d) := by
  have key : ∀ {j : Nat} {t : List Char}, t.head? ≠ some (quoteChar d) → (sp j ++ t).head? ≠ some (quoteChar d) := by
    intro j t ht
    cases j with
    | zero => exact ht
    | succ j => cases d <;> simp [sp, List.replicate_succ, quoteChar]
  cases h with
  | @eof j => have := key (j := j) (t := []) (by simp); simpa using this
  | line => exact key (by cases d <;> simp [quoteChar])
  | cr => exact key (by cases d <;> simp [quoteChar])
  | remark => exact key (by cases d <;> simp [quoteChar])
  | colon => exact key (by cases d <;> simp [quoteChar])

theorem Front.scalar (h : Front s newCtx p b (u ++ text)) (hu : BlockText.Scalar u e) (ht : Shut text) :
    ∃ q b', Scal (toks s) p e q ∧ Front s newCtx q b' text := by
  cases hu with
  | phrase hp =>
    obtain ⟨q, h1, h2⟩ := Front.phrase ht.halt (fun h => ht.stop h) hp h
    exact ⟨q, _, .word h1, h2⟩
  | @single t hv =>
    obtain ⟨q, h1, h2⟩ := Front.quoted (d := false) (t := t) (r := text) (by simpa [quoteChar] using h) hv (shut_quote ht)
    exact ⟨_, _, .quoted h1, h2⟩
  | @double t hv =>
    obtain ⟨q, h1, h2⟩ := Front.quoted (d := true) (t := t) (r := text) (by simpa [quoteChar] using h) hv (shut_quote ht)
    exact ⟨_, _, .quoted h1, h2⟩

theorem Front.atom (h : Front s newCtx p b (u ++ text)) (hb : b.mayPrecedeWord = true) (hu : BlockText.Atom u e) (ht : Shut text) :
    ∃ q b', Atom (toks s) p e q ∧ Front s newCtx q b' text := by
  cases hu with
  | scalar hu =>
    obtain ⟨q, b', h1, h2⟩ := h.scalar hu ht
    exact ⟨q, b', .scal h1, h2⟩
  | ref ha =>
    obtain ⟨h1, h2⟩ := Front.alias (text := text) (by simpa using h) hb ha ht.halt
    exact ⟨_, _, .ref h1, h2⟩

theorem word_visible (h : PlainTree.Word w) : ∃ c r, w = c :: r ∧ Visible c := by
  obtain ⟨c, r, rfl, hi⟩ := h.first
  have hf := h.chars c (by simp)
  refine ⟨c, r, rfl, ?_⟩
  simp only [forbidden, indicators, List.mem_cons, List.not_mem_nil, or_false, not_or] at hf hi
  simp [Visible, hf, hi]

theorem looseWord_visible (h : LooseWord w) : ∃ c r, w = c :: r ∧ c ∉ breaking ∧ c ∉ indicators ∧ c ∉ ['[', '{'] := by
  obtain ⟨c, r, rfl, hi⟩ := h.first
  exact ⟨c, r, rfl, h.chars c (by simp), hi⟩

theorem sentence_visible (h : Sentence u) : ∃ c r, u = c :: r ∧ Visible c := by
  obtain ⟨c, r, rfl, h1, h2, h3⟩ : ∃ c r, u = c :: r ∧ c ∉ breaking ∧ c ∉ indicators ∧ c ∉ ['[', '{'] := by
    cases h.words with
    | word hw => exact looseWord_visible hw
    | more hw _ =>
      obtain ⟨c, r, rfl, hc⟩ := looseWord_visible hw
      exact ⟨c, _, rfl, hc⟩
  have h4 := h.first c rfl
  refine ⟨c, r, rfl, ?_⟩
  simp only [breaking, indicators, List.mem_cons, List.not_mem_nil, or_false, not_or] at h1 h2 h3 h4
  simp [Visible, h1, h2, h3, h4]

theorem scalar_visible (h : BlockText.Scalar u e) : ∃ c r, u = c :: r ∧ Visible c := by
  cases h with
  | phrase h =>
    cases h with
    | word h => exact word_visible h
    | more h _ =>
      obtain ⟨c, r, rfl, hc⟩ := word_visible h
      exact ⟨c, _, rfl, hc⟩
  | single => exact ⟨_, _, rfl, by simp [Visible]⟩
  | double => exact ⟨_, _, rfl, by simp [Visible]⟩

theorem atom_visible (h : BlockText.Atom u e) : ∃ c r, u = c :: r ∧ Visible c := by
  cases h with
  | scalar h => exact scalar_visible h
  | ref => exact ⟨_, _, rfl, by simp [Visible]⟩

theorem tag_visible (h : BlockText.Tag u w) : ∃ c r, u = c :: r ∧ Visible c := by
  cases h <;> exact ⟨_, _, rfl, by simp [Visible]⟩

theorem props_visible (h : BlockText.Props u e) : ∃ c r, u = c :: r ∧ Visible c := by
  cases h with
  | anchor => exact ⟨_, _, rfl, by simp [Visible]⟩
  | tag h => exact tag_visible h
  | anchorTag => exact ⟨_, _, rfl, by simp [Visible]⟩
  | tagAnchor h _ =>
    obtain ⟨c, r, rfl, hc⟩ := tag_visible h
    exact ⟨c, _, rfl, hc⟩

theorem scalar_tidy (h : BlockText.Scalar u e) : tidy e = e := by cases h <;> simp [tidy]

theorem atom_tidy (h : BlockText.Atom u e) : tidy e = e := by
  cases h with
  | scalar h => exact scalar_tidy h
  | ref => simp [tidy]

theorem body_visible {m : Nat} (h : BlockText.Body m u e) : ∃ c r, u = c :: r ∧ Visible c := by
  cases h with
  | scalar h => exact scalar_visible h
  | coll h => cases h <;> exact ⟨_, _, rfl, by simp [Visible]⟩
  | sentence h => exact sentence_visible h
  | lines h _ =>
    obtain ⟨c, r, rfl, hc⟩ := sentence_visible h
    exact ⟨c, _, rfl, hc⟩
  | singleLines => exact ⟨_, _, rfl, by simp [Visible]⟩
  | doubleLines => exact ⟨_, _, rfl, by simp [Visible]⟩

theorem core_visible {m : Nat} (h : BlockText.Core m u e) : ∃ c r, u = c :: r ∧ Visible c := by
  cases h with
  | body h => exact body_visible h
  | ref => exact ⟨_, _, rfl, by simp [Visible]⟩

theorem flow_tidy {o : Option Nat} {k : BlockText.Part} (h : BlockText.Flow o k n u e) : tidy e = e := by
  induction h with
  | atom h => exact atom_tidy h
  | coll _ ih => exact ih
  | noItems | noPairs => simp [tidy, tidies]
  | seq _ _ ih | map _ _ ih => exact ih
  | item _ _ ih | lastPair _ _ ih => simp [tidy, tidies, ih]
  | itemComma _ _ _ ih | pairComma _ _ _ ih => simp [tidy, tidies, ih]
  | items _ _ _ _ ih ih' | pairs _ _ _ _ ih ih' =>
    simp only [tidy, Node.sequence.injEq, Node.mapping.injEq] at ih'
    simp [tidy, tidies, ih, ih']
  | pair h _ _ _ _ _ ih => simp [tidy, ih, atom_tidy h]
  | tight _ _ h _ => simp [tidy, scalar_tidy h]
  | alone h => simp [tidy, atom_tidy h]
  | void h => simp [tidy, atom_tidy h]
  | plain _ ih | asked _ ih => exact ih

theorem body_tidy {m : Nat} (h : BlockText.Body m u e) : tidy e = e := by
  cases h with
  | scalar h => exact scalar_tidy h
  | coll h => exact flow_tidy h
  | sentence => simp [tidy]
  | lines => simp [tidy]
  | singleLines => simp [tidy]
  | doubleLines => simp [tidy]

theorem core_tidy {m : Nat} (h : BlockText.Core m u e) : tidy e = e := by
  cases h with
  | body h => exact body_tidy h
  | ref => simp [tidy]

theorem wraps_shut {m : Nat} (h : BlockText.Wraps m u v) (ht : Shut text) : Shut (u ++ text) := by
  cases h with
  | stop => exact ht
  | more h =>
    cases h with
    | lf => simpa using Shut.line
    | crlf => simpa using Shut.cr
    | cr => simpa using Shut.cr

theorem joint_fold : ∀ c : Nat, joint (List.replicate c ['\n']) = BlockText.fold c
  | 0 => rfl
  | c + 1 => by
    simp only [List.replicate_succ, joint, BlockText.fold, List.singleton_append, List.cons.injEq, true_and]
    induction c with
    | zero => rfl
    | succ c ih => simp [List.replicate_succ, ih]

theorem Front.hollow {c : Nat} {g : List Char} (hg : BlockText.Hollow c g) : ∀ {p : Nat} {b : TokType}, Front s newCtx p b (g ++ text) →
    ∃ q b', Blanks (toks s) p (List.replicate c ['\n']) q ∧ Front s newCtx q b' text := by
  induction hg with
  | nil => intro p b h; exact ⟨p, b, .none, h⟩
  | @cons c j g _ ih =>
    intro p b h
    obtain ⟨h1, h2⟩ := Front.spaces (j := j) (r := '\n' :: (g ++ text)) .block (by simpa [sp] using h)
    simp only [ite_self] at h2
    obtain ⟨g1, g2, g3⟩ := h2.emit (emits_line .block) (by simp [Plainly])
    obtain ⟨q, b', k1, k2⟩ := ih g3
    refine ⟨q, b', ?_, k2⟩
    have := Blanks.line (W := toks s) (j := j) ⟨fun i hi => (h1 i hi).1, by simp [g1], by simp [g1]⟩ g1 k1
    rwa [g2] at this

theorem Front.wraps {m : Nat} (hu : BlockText.Wraps m u v) (ht : Shut text) : ∀ {p : Nat} {b : TokType}, Front s newCtx p b (u ++ text) →
    ∃ q b', Para (toks s) .flowOut m p v q ∧ Front s newCtx q b' text := by
  induction hu with
  | stop => intro p b h; exact ⟨p, b, .stop, h⟩
  | @more i j c b₁ g t u v hb hg hm hs hw ih =>
    intro p b h
    have hshut := wraps_shut hw ht
    obtain ⟨h1, h2⟩ := Front.spaces (j := i) (r := b₁ ++ (g ++ (sp j ++ (t ++ (u ++ text))))) .block (by simpa [sp] using h)
    simp only [ite_self] at h2
    obtain ⟨x, r, hx, hv⟩ := sentence_visible hs
    have hb' : BlockText.Break b₁ (g ++ (sp j ++ (t ++ (u ++ text)))) := by
      cases hb with
      | lf => exact .lf
      | crlf => exact .crlf
      | cr hb =>
        refine .cr ?_
        subst hx
        cases g with
        | cons => simpa using hb
        | nil =>
          cases j with
          | zero => simpa [sp] using hb
          | succ j => simp [sp, List.replicate_succ]
    obtain ⟨g1, -, g2⟩ := h2.break .block hb'
    obtain ⟨q, b', k1, k2⟩ := Front.hollow hg g2
    subst hx
    obtain ⟨l1, l2, l3⟩ := Front.lineSp (n := j) (c := x) (r := r ++ (u ++ text)) (by simpa using k2) hv
    obtain ⟨q', m1, m2⟩ := Front.clause hshut.halt (fun h => hshut.stop h) hs.words l3
    obtain ⟨q'', b'', n1, n2⟩ := ih m2
    refine ⟨q'', b'', ?_, n2⟩
    have := Para.line (W := toks s) (ctx := .flowOut) (n := m) (i := i) ⟨fun i hi => (h1 i hi).1, by simp [g1], by simp [g1]⟩ g1 k1 l1 hm
      m1.str (safe_flowOut.2 m1.str) m1.run n1
    rwa [joint_fold] at this

/-! Texts in quotes on several lines. -/

theorem emitsQ_break (h : BlockText.Break u r) : ∃ o, Emits (quoteCtx d st) b (u ++ r) .lineBreak o (quoteCtx d st) r := by
  cases h with
  | lf => exact ⟨_, fun pos => by cases d <;> exact ⟨_, _, rfl, rfl, rfl⟩⟩
  | crlf => exact ⟨_, fun pos => by cases d <;> exact ⟨_, _, rfl, rfl, rfl⟩⟩
  | cr hr =>
    refine ⟨['\r'], fun pos => ?_⟩
    cases r with
    | nil => cases d <;> exact ⟨_, _, rfl, rfl, rfl⟩
    | cons c r =>
      have hc : c ≠ '\n' := by simpa using hr
      cases d <;> refine ⟨⟨.lineBreak, pos, pos, ['\r']⟩, ⟨pos.row + 1, 0⟩, ?_, rfl, rfl⟩ <;>
        simp [raNext, matchSpecialToken, Ctx.currentType, singleQuoteMatching, doubleQuoteMatching, baseMatching, lookahead, hc, quoteCtx, setEscaped,
          Ctx.lineBreakRevertContext] <;> rfl

theorem emitsQ_line : Emits (quoteCtx d st) b ('\n' :: r) .lineBreak ['\n'] (quoteCtx d st) r := by
  intro pos
  cases d <;> exact ⟨_, _, rfl, rfl, rfl⟩

theorem FrontIn.spacesQ : ∀ {j p : Nat} {b : TokType}, FrontIn s ks .normal (quoteCtx d st) p b (sp j ++ r) →
    (∀ i < j, (toks s (p + i)).type = .space ∧ Calm (toks s) (p + i)) ∧ ∃ b', FrontIn s ks .normal (quoteCtx d st) (p + j) b' r
  | 0, p, b, h => ⟨fun i hi => by omega, b, h⟩
  | j + 1, p, b, h => by
    obtain ⟨h1, -, h3⟩ := h.token (emits_spaceQ (r := sp j ++ r)) (by simp [Plainly]) (by simp)
    obtain ⟨g1, b', g2⟩ := h3.spacesQ
    refine ⟨fun i hi => ?_, b', by rwa [show p + (j + 1) = p + 1 + j from by omega]⟩
    cases i with
    | zero => exact ⟨h1, h3.calmly⟩
    | succ i =>
      rw [show p + (i + 1) = p + 1 + i from by omega]
      exact g1 i (by omega)

theorem FrontIn.hollowQ {c : Nat} {g : List Char} (hg : BlockText.Hollow c g) : ∀ {p : Nat} {b : TokType},
    FrontIn s ks .normal (quoteCtx d st) p b (g ++ text) →
    ∃ q b', Blanks (toks s) p (List.replicate c ['\n']) q ∧ FrontIn s ks .normal (quoteCtx d st) q b' text := by
  induction hg with
  | nil => intro p b h; exact ⟨p, b, .none, h⟩
  | @cons c j g _ ih =>
    intro p b h
    obtain ⟨h1, b1, h2⟩ := FrontIn.spacesQ (j := j) (r := '\n' :: (g ++ text)) (by simpa using h)
    obtain ⟨g1, g2, g3⟩ := h2.token emitsQ_line (by simp [Plainly]) (by simp)
    obtain ⟨q, b', k1, k2⟩ := ih g3
    refine ⟨q, b', ?_, k2⟩
    have := Blanks.line (W := toks s) (j := j) ⟨fun i hi => h1 i hi, by simp [g1], by simp [g1]⟩ g1 k1
    rwa [g2] at this

theorem folds_emits {m : Nat} (hu : BlockText.Folds (quoteKind d) m u v) :
    ∃ ty o cx' r', Emits (quoteCtx d st) b (u ++ quoteChar d :: r) ty o cx' r' := by
  have hq : quoteChar d ≠ '\n' := by cases d <;> decide
  have key : ∀ {b₁ y : List Char}, BlockText.Break b₁ y → ∃ ty o cx' r', Emits (quoteCtx d st) b (b₁ ++ (y ++ quoteChar d :: r)) ty o cx' r' := by
    intro b₁ y hb
    obtain ⟨o, he⟩ := emitsQ_break (d := d) (st := st) (b := b) (break_append (r := quoteChar d :: r) hb (by simpa using hq))
    exact ⟨_, _, _, _, he⟩
  cases hu with
  | last hb => simpa using key hb
  | more hb => simpa using key hb

theorem FrontIn.folds {m : Nat} (hr : r.head? ≠ some (quoteChar d)) (hu : BlockText.Folds (quoteKind d) m u v) : ∀ {p : Nat} {b : TokType},
    FrontIn s ks .normal (quoteCtx d st) p b (u ++ quoteChar d :: r) →
    ∃ q, Verse (toks s) d m p v q ∧ FrontIn s ks .normal (ctxOf st) (q + 1) (quoteTok d) r := by
  have hq : quoteChar d ≠ '\n' := by cases d <;> decide
  have lead : ∀ {p j c : Nat} {b : TokType} {b₁ g x : List Char}, BlockText.Break b₁ (g ++ (sp j ++ x)) → BlockText.Hollow c g →
      FrontIn s ks .normal (quoteCtx d st) p b (b₁ ++ (g ++ (sp j ++ x))) →
      (toks s p).type = .lineBreak ∧ ∃ q b', Blanks (toks s) (p + 1) (List.replicate c ['\n']) q ∧
        (∀ i < j, (toks s (q + i)).type = .space ∧ Calm (toks s) (q + i)) ∧ FrontIn s ks .normal (quoteCtx d st) (q + j) b' x := by
    intro p j c b b₁ g x hb hg h
    obtain ⟨o, he⟩ := emitsQ_break (d := d) (st := st) (b := b) hb
    obtain ⟨h1, -, h2⟩ := h.token he (by simp [Plainly]) (by simp)
    obtain ⟨q, b1, h3, h4⟩ := FrontIn.hollowQ hg h2
    obtain ⟨h5, b2, h6⟩ := h4.spacesQ
    exact ⟨h1, q, b2, h3, h5, h6⟩
  induction hu with
  | @last j c b₁ g t hb hg hm hw hh _ =>
    intro p b h
    obtain ⟨h1, q, b', h2, h3, h4⟩ := lead (x := t ++ quoteChar d :: r) (by simpa using break_append (r := quoteChar d :: r) hb (by simpa using hq))
      hg (by simpa using h)
    cases t with
    | nil =>
      obtain ⟨g1, -, g2⟩ := h4.token (emits_close hr) plainly_quote (by cases d <;> simp [quoteTok])
      have hn := quote_ne g1
      have := Verse.close (n := m) h1 h2 ⟨h3, hn.1, hn.2.1⟩ hm g1
      rw [joint_fold] at this
      exact ⟨_, by simpa using this, g2⟩
    | cons x t =>
      obtain ⟨q', b1, g1, g2, g3⟩ := FrontIn.line (fun b => ⟨_, _, _, _, emits_close (b := b) hr⟩) (x :: t).length (Nat.le_refl _) hw h4
      have g3 := g3 x t rfl (by simpa using hh)
      obtain ⟨k1, -, k2⟩ := g2.token (emits_close hr) plainly_quote (by cases d <;> simp [quoteTok])
      have := Verse.line (n := m) h1 h2 ⟨h3, by simp [g3], by simp [g3]⟩ hm g3 g1 (.stop k1)
      rw [joint_fold] at this
      exact ⟨_, by simpa using this, k2⟩
  | @more j c b₁ g t u v hb hg hm hw hne hh _ _ hu ih =>
    intro p b h
    have hx := fun b => folds_emits (st := st) (b := b) (r := r) hu
    obtain ⟨h1, q, b', h2, h3, h4⟩ := lead (x := t ++ (u ++ quoteChar d :: r)) (by simpa using break_append (r := quoteChar d :: r) hb (by simpa using hq))
      hg (by simpa using h)
    obtain ⟨q', b1, g1, g2, g3⟩ := FrontIn.line hx t.length (Nat.le_refl _) hw h4
    have g3 : (toks s (q + j)).type = .string := by
      cases t with
      | nil => exact absurd rfl hne
      | cons x t => exact g3 x t rfl (by simpa using hh)
    obtain ⟨q'', k1, k2⟩ := ih g2
    have := Verse.line (n := m) h1 h2 ⟨h3, by simp [g3], by simp [g3]⟩ hm g3 g1 k1
    rw [joint_fold] at this
    exact ⟨_, this, k2⟩

theorem Front.scroll {m : Nat} (h : Front s newCtx p b (quoteChar d :: (t ++ (u ++ quoteChar d :: r)))) (hv : Within (quoteKind d) t)
    (hu : BlockText.Folds (quoteKind d) m u v) (hr : r.head? ≠ some (quoteChar d)) :
    ∃ q, Scroll (toks s) d m p (t ++ v) q ∧ Front s newCtx (q + 1) (quoteTok d) r := by
  have hq : quoteChar d ≠ '\n' := by cases d <;> decide
  obtain ⟨h1, -, h2⟩ := h.toFrontIn.token emits_open plainly_quote (by cases d <;> simp [quoteTok])
  have hx := fun b => folds_emits (st := []) (b := b) (r := r) hu
  obtain ⟨q, b1, g1, g2, -⟩ := FrontIn.line hx t.length (Nat.le_refl _) hv h2
  obtain ⟨q', k1, k2⟩ := FrontIn.folds hr hu g2
  exact ⟨q', .mk h.pos h1 g1 k1 h2.calmly k2.calmly, ⟨k2⟩⟩

theorem Front.body {m : Nat} (h : Front s newCtx p b (u ++ text)) (hb : b.mayPrecedeWord = true) (hu : BlockText.Body m u e) (ht : Shut text) :
    ∃ q b', Whole (toks s) m p e q ∧ Front s newCtx q b' text := by
  cases hu with
  | scalar hu =>
    obtain ⟨q, b', h1, h2⟩ := h.scalar hu ht
    exact ⟨q, b', .body (.scal h1), h2⟩
  | coll hu =>
    obtain ⟨q, b', h1, h2⟩ := h.coll hb hu
    exact ⟨q, b', .body (.coll h1), h2⟩
  | sentence hu =>
    obtain ⟨q, h1, h2⟩ := Front.clause ht.halt (fun h => ht.stop h) hu.words h
    exact ⟨q, _, .body (.loose h1), h2⟩
  | @lines t u v hu hw =>
    have hshut := wraps_shut hw ht
    obtain ⟨q, h1, h2⟩ := Front.clause (text := u ++ text) hshut.halt (fun h => hshut.stop h) hu.words (by simpa using h)
    obtain ⟨q', b', h3, h4⟩ := h2.wraps hw ht
    exact ⟨q', b', .lines h1 h3, h4⟩
  | @singleLines t u v hv _ hu =>
    obtain ⟨q, h1, h2⟩ := Front.scroll (d := false) (r := text) (by simpa [quoteChar] using h) hv hu (shut_quote ht)
    exact ⟨_, _, .scroll h1, h2⟩
  | @doubleLines t u v hv _ hu =>
    obtain ⟨q, h1, h2⟩ := Front.scroll (d := true) (r := text) (by simpa [quoteChar] using h) hv hu (shut_quote ht)
    exact ⟨_, _, .scroll h1, h2⟩

theorem Front.core {m : Nat} (h : Front s newCtx p b (u ++ text)) (hb : b.mayPrecedeWord = true) (hu : BlockText.Core m u e) (ht : Shut text) :
    ∃ q b', Core (toks s) m p e q ∧ Front s newCtx q b' text := by
  cases hu with
  | body hu =>
    obtain ⟨q, b', h1, h2⟩ := h.body hb hu ht
    exact ⟨q, b', .body h1, h2⟩
  | ref ha =>
    obtain ⟨h1, h2⟩ := Front.alias (text := text) (by simpa using h) hb ha ht.halt
    exact ⟨_, _, .ref h1, h2⟩

theorem Front.sep' (hu : BlockText.Sep n u) (hv : ∃ c r, v = c :: r ∧ Visible c) (hc : Lax cx) (hs : solW (toks s) p = false)
    (h : Front s cx p b (u ++ (v ++ r))) : ∃ q b', b'.mayPrecedeWord = true ∧ Sep (toks s) n p q ∧ Front s newCtx q b' (v ++ r) := by
  obtain ⟨c, v, rfl, hc'⟩ := hv
  exact Front.sep (r := v ++ r) hu hc' hc hs h

theorem literal_visible {m : Nat} (h : BlockText.Literal n m z u t) : ∃ c r, u = c :: r ∧ Visible c := by
  cases h with
  | mk => exact ⟨_, _, rfl, by simp [Visible]⟩
  | folded => exact ⟨_, _, rfl, by simp [Visible]⟩

theorem Front.leaf (h : Front s newCtx p b (u ++ r)) (hs : solW (toks s) p = false) (hu : BlockText.Leaf n z u e)
    (hz : z = true → r = []) (hr : LineStart (max n 1) r) : ∃ q e', Leaf (toks s) n p e' q ∧ tidy e' = e ∧ After s q r := by
  cases hu with
  | @atom u v w e hu hv hw =>
    simp only [List.append_assoc] at h
    obtain ⟨q1, b1, hb1, g1, h1⟩ := h.sep' hu (core_visible hv) .block hs
    obtain ⟨q2, b2, g2, h2⟩ := h1.core hb1 hv (eol_parts hw hz).2
    obtain ⟨q3, g3, h3⟩ := h2.eol hw hz hr .block
    exact ⟨q3, _, .atom g1 g2 g3, core_tidy hv, h3⟩
  | @props u v u' v' w x e hu hv hu' hv' hw =>
    simp only [List.append_assoc] at h
    obtain ⟨q1, b1, hb1, g1, h1⟩ := h.sep' hu (props_visible hv) .block hs
    obtain ⟨q2, cx, hc, h2, hs2, g2⟩ := h1.props hb1 hv (sep_soft hu')
    obtain ⟨y', g2, hy⟩ := g2 .invalid rfl
    obtain ⟨q3, b3, hb3, g3, h3⟩ := h2.sep' hu' (body_visible hv') hc hs2
    obtain ⟨q4, b4, g4, h4⟩ := h3.body hb3 hv' (eol_parts hw hz).2
    obtain ⟨q5, g5, h5⟩ := h4.eol hw hz hr .block
    exact ⟨q5, _, .props g1 g2 g3 g4 g5, by simp [tidy, hy, body_tidy hv'], h5⟩
  | @lit m u v t hu hm hm1 hv =>
    simp only [List.append_assoc] at h
    obtain ⟨q1, b1, hb1, g1, h1⟩ := h.sep' hu (literal_visible hv) .block hs
    obtain ⟨q2, g2, h2⟩ := h1.literal hb1 hv hm hz (hr.mono (by omega))
    exact ⟨q2, _, .lit g1 hm hm1 g2, by simp [tidy], h2⟩
  | @propsLit m u v u' w t x hu hv hu' hm hm1 hw =>
    simp only [List.append_assoc] at h
    obtain ⟨q1, b1, hb1, g1, h1⟩ := h.sep' hu (props_visible hv) .block hs
    obtain ⟨q2, cx, hc, h2, hs2, g2⟩ := h1.props hb1 hv (sep_soft hu')
    obtain ⟨y', g2, hy⟩ := g2 .invalid rfl
    obtain ⟨q3, b3, hb3, g3, h3⟩ := h2.sep' hu' (literal_visible hw) hc hs2
    obtain ⟨q4, g4, h4⟩ := h3.literal hb3 hw hm hz (hr.mono (by omega))
    exact ⟨q4, _, .propsLit g1 g2 g3 hm hm1 g4, by simp [tidy, hy], h4⟩

theorem absence_absent {d : Bool} : absence (absent d) = .nil := by cases d <;> rfl

theorem Front.bare (h : Front s newCtx p b (u ++ r)) (hs : solW (toks s) p = false) (hu : BlockText.Bare n z u e)
    (hz : z = true → r = []) {k : Nat} (hr : LineStart k r) : ∃ q e', Bare (toks s) n p e' q ∧ tidy e' = e ∧ After s q r := by
  cases hu with
  | @mk u v w x hu hv hw =>
    simp only [List.append_assoc] at h
    obtain ⟨q1, b1, hb1, g1, h1⟩ := h.sep' hu (props_visible hv) .block hs
    obtain ⟨q2, cx, hc, h2, hs2, g2⟩ := h1.props hb1 hv (eol_parts hw hz).1
    obtain ⟨q3, g3, h3⟩ := h2.eol hw hz hr hc
    obtain ⟨i, hi⟩ := g3.sp
    obtain ⟨y', g2, hy⟩ := g2 (absent (decide (0 < i))) absence_absent
    exact ⟨q3, _, .mk g1 g2 hi g3, by simp [tidy, hy, Node.null], h3⟩

/-! ### Collections -/

theorem items_visible (h : BlockText.Items n z u es) : ∃ c r, u = c :: r ∧ Visible c := by
  cases h <;> exact ⟨_, _, rfl, by simp [Visible]⟩

theorem pairs_visible (h : BlockText.Pairs n z u es) : ∃ c r, u = c :: r ∧ Visible c := by
  cases h with
  | last h _ | cons h _ _ =>
    obtain ⟨c, r, rfl, hc⟩ := atom_visible h
    exact ⟨c, _, rfl, hc⟩
  | keyLast | keyCons | entryLast | entryCons => exact ⟨_, _, rfl, by simp [Visible]⟩

theorem block_visible (h : BlockText.Block n z u e) : ∃ c r, u = c :: r ∧ Visible c := by
  cases h with
  | seq h => exact items_visible h
  | map h => exact pairs_visible h

theorem After.enter' (h : After s q (sp n ++ (u ++ r))) (hu : ∃ c r, u = c :: r ∧ Visible c) : Line (toks s) q n ∧
    ∃ b, b.mayPrecedeWord = true ∧ Front s newCtx (q + n) b (u ++ r) := by
  obtain ⟨c, u, rfl, hc⟩ := hu
  exact After.enter h hc

theorem lineStart' (hu : ∃ c r, u = c :: r ∧ Visible c) : LineStart (n + 1) (sp n ++ (u ++ r)) := by
  obtain ⟨c, u, rfl, hc⟩ := hu
  exact lineStart_sp hc

theorem leaf_soft (h : BlockText.Leaf n z u e) : Soft (u ++ r) := by
  cases h with
  | atom h | props h | lit h | propsLit h => rw [List.append_assoc]; exact sep_soft h

theorem bare_soft (h : BlockText.Bare n z u e) : Soft (u ++ r) := by
  cases h with
  | mk h => rw [List.append_assoc]; exact sep_soft h

theorem value_soft (h : BlockText.Value n z u e) (hz : z = true → r = []) : Soft (u ++ r) := by
  cases h with
  | leaf h => exact leaf_soft h
  | bare h => exact bare_soft h
  | null h => exact (eol_parts h hz).1
  | under h => rw [List.append_assoc]; exact (eol_parts h (by simp)).1
  | flush h => rw [List.append_assoc]; exact (eol_parts h (by simp)).1
  | underProps h => rw [List.append_assoc]; exact sep_soft h
  | flushProps h => rw [List.append_assoc]; exact sep_soft h

theorem field_soft (h : BlockText.Field n z u e) (hz : z = true → r = []) : Soft (u ++ r) := by
  cases h with
  | value h => exact value_soft h hz
  | compact h => exact .space

theorem eol_full (h : BlockText.Eol false u) : u ≠ [] := by
  cases h with
  | brk _ _ h => cases h <;> simp

theorem item_soft (h : BlockText.Item n z u e) (hz : z = true → r = []) : Soft (u ++ r) ∧ u ++ r ≠ [] := by
  have hne : ∀ {n u}, BlockText.Sep n u → u ≠ [] := by
    intro n u h
    cases h with
    | mid => simp [sp]
    | lines h _ => simp [eol_full h]
  cases h with
  | leaf h => exact ⟨leaf_soft h, by cases h with | atom h | props h | lit h | propsLit h => simp [hne h]⟩
  | bare h => exact ⟨bare_soft h, by cases h with | mk h => simp [hne h]⟩
  | null h h1 => exact ⟨(eol_parts h hz).1, by simp [h1]⟩
  | compact h => exact ⟨.space, by simp [sp]⟩
  | under h => rw [List.append_assoc]; exact ⟨(eol_parts h (by simp)).1, by simp [eol_full h]⟩
  | underProps h => rw [List.append_assoc]; exact ⟨sep_soft h, by simp [hne h]⟩

theorem Front.dash (h : Front s newCtx p b ('-' :: (u ++ r))) (hb : b.mayPrecedeWord = true) (hu : BlockText.Item n z u e)
    (hz : z = true → r = []) : ((toks s p).type = .sequenceEntry ∧ Calm (toks s) p) ∧
      ((toks s (p + 1)).type = .space ∨ (toks s (p + 1)).type = .lineBreak) ∧
      Front s newCtx (p + 1) .sequenceEntry (u ++ r) ∧ solW (toks s) (p + 1) = false := by
  obtain ⟨h1, h2⟩ := item_soft hu hz
  obtain ⟨g1, -, g3⟩ := h.emit (emits_dash h1.blank hb) (by simp [Plainly])
  refine ⟨⟨g1, g3.calm⟩, ?_, g3, solW_not h.pos (by simp [g1]) (by simp [g1])⟩
  generalize u ++ r = x at g3 h1 h2
  cases h1 with
  | space => exact .inl (g3.emit (emits_space .block) (by simp [Plainly])).1
  | line => exact .inr (g3.emit (emits_line .block) (by simp [Plainly])).1
  | @cr r =>
    obtain ⟨o, r', he⟩ := emits_return (b := .sequenceEntry) (r := r) .block
    exact .inr (g3.emit he (by simp [Plainly])).1
  | eof => simp at h2

theorem Front.key (h : Front s newCtx p b (u ++ (sp i ++ ':' :: (v ++ r)))) (hb : b.mayPrecedeWord = true) {x e : Node}
    (hu : BlockText.Atom u x) (hv : BlockText.Value n z v e) (hz : z = true → r = []) :
    ∃ q, Atom (toks s) p x q ∧ Sp (toks s) q i ∧ ((toks s (q + i)).type = .mappingValue ∧ Calm (toks s) (q + i)) ∧
      Front s newCtx (q + i + 1) .mappingValue (v ++ r) ∧ solW (toks s) (q + i + 1) = false := by
  have hbl := (value_soft hv hz).blank
  obtain ⟨q, b', g1, g2⟩ := h.atom hb hu (.colon hbl)
  obtain ⟨k1, k2⟩ := g2.spaces .block
  simp only [ite_self] at k2
  obtain ⟨m1, -, m3⟩ := k2.emit (emits_colon hbl) (by simp [Plainly])
  exact ⟨q, g1, ⟨fun i hi => (k1 i hi).1, by simp [m1], by simp [m1]⟩, ⟨m1, m3.calm⟩, m3, solW_not k2.pos (by simp [m1]) (by simp [m1])⟩

theorem Front.ask (h : Front s newCtx p b ('?' :: (u ++ r))) (hb : b.mayPrecedeWord = true) (hu : BlockText.Field n z u e)
    (hz : z = true → r = []) : ((toks s p).type = .mappingKey ∧ Calm (toks s) p) ∧
      Front s newCtx (p + 1) .mappingKey (u ++ r) ∧ solW (toks s) (p + 1) = false := by
  obtain ⟨g1, -, g3⟩ := h.emit (emits_ask (field_soft hu hz).blank hb) (by simp [Plainly])
  exact ⟨⟨g1, g3.calm⟩, g3, solW_not h.pos (by simp [g1]) (by simp [g1])⟩

theorem Front.answer (h : Front s newCtx p b (':' :: (u ++ r))) (hu : BlockText.Field n z u e)
    (hz : z = true → r = []) : ((toks s p).type = .mappingValue ∧ Calm (toks s) p) ∧
      Front s newCtx (p + 1) .mappingValue (u ++ r) ∧ solW (toks s) (p + 1) = false := by
  obtain ⟨g1, -, g3⟩ := h.emit (emits_colon (field_soft hu hz).blank) (by simp [Plainly])
  exact ⟨⟨g1, g3.calm⟩, g3, solW_not h.pos (by simp [g1]) (by simp [g1])⟩

mutual
theorem front_block : ∀ {n : Nat} {z : Bool} {u : List Char} {e : Node}, BlockText.Block n z u e → ∀ {s : Lexer} {p : Nat} {b : TokType}
    {r : List Char}, (z = true → r = []) → LineStart (n + 1) r → b.mayPrecedeWord = true → Front s newCtx p b (u ++ r) →
    ∃ q e', Blk (toks s) n p e' q ∧ tidy e' = e ∧ After s q r
  | _, _, _, _, .seq hi => fun hz hr hb h => by
    obtain ⟨q, es', g1, g2, g3⟩ := front_items hi hz hr hb h
    exact ⟨q, _, .seq g1, by simp [tidy, g2], g3⟩
  | _, _, _, _, .map hi => fun hz hr hb h => by
    obtain ⟨q, es', g1, g2, g3⟩ := front_pairs hi hz hr hb h
    exact ⟨q, _, .map g1, by simp [tidy, g2], g3⟩

theorem front_items : ∀ {n : Nat} {z : Bool} {u : List Char} {es : List Node}, BlockText.Items n z u es → ∀ {s : Lexer} {p : Nat}
    {b : TokType} {r : List Char}, (z = true → r = []) → LineStart (n + 1) r → b.mayPrecedeWord = true → Front s newCtx p b (u ++ r) →
    ∃ q es', Items (toks s) n p es' q ∧ tidies es' = es ∧ After s q r
  | _, _, _, _, .last hi => fun hz hr hb h => by
    obtain ⟨g1, g2, g3, g4⟩ := Front.dash h hb hi hz
    obtain ⟨q, e', k1, k2, k3⟩ := front_item hi hz hr g3 g4
    exact ⟨q, _, .last h.pos g1 g2 k1, by simp [tidies, k2], k3⟩
  | _, _, _, _, .cons hi his => fun hz hr hb h => by
    simp only [List.cons_append, List.append_assoc] at h
    obtain ⟨g1, g2, g3, g4⟩ := Front.dash h hb hi (by simp)
    obtain ⟨q, e', k1, k2, k3⟩ := front_item hi (by simp) (lineStart' (items_visible his)) g3 g4
    obtain ⟨m1, b', m2, m3⟩ := k3.enter' (items_visible his)
    obtain ⟨q2, es', n1, n2, n3⟩ := front_items his hz hr m2 m3
    exact ⟨q2, _, .cons h.pos g1 g2 k1 m1 n1, by simp [tidies, k2, n2], n3⟩

theorem front_item : ∀ {n : Nat} {z : Bool} {u : List Char} {e : Node}, BlockText.Item n z u e → ∀ {s : Lexer} {p : Nat} {b : TokType}
    {r : List Char}, (z = true → r = []) → LineStart (n + 1) r → Front s newCtx p b (u ++ r) → solW (toks s) p = false →
    ∃ q e', Item (toks s) n p e' q ∧ tidy e' = e ∧ After s q r
  | _, _, _, _, .leaf hl => fun hz hr h hs => by
    obtain ⟨q, e', g1, g2, g3⟩ := h.leaf hs hl hz (hr.mono (by omega))
    exact ⟨q, e', .leaf g1, g2, g3⟩
  | _, _, _, _, .bare hl => fun hz hr h hs => by
    obtain ⟨q, e', g1, g2, g3⟩ := h.bare hs hl hz hr
    exact ⟨q, e', .bare g1, g2, g3⟩
  | _, _, _, _, .null hl _ => fun hz hr h hs => by
    obtain ⟨q, g1, g2⟩ := h.eol hl hz hr .block
    exact ⟨q, _, .null g1, by simp [tidy, Node.null], g2⟩
  | _, _, _, _, .compact hl => fun hz hr h hs => by
    simp only [List.append_assoc] at h
    obtain ⟨c, u', he, hc⟩ := block_visible hl
    obtain ⟨g1, g2, g3⟩ := Front.lineSp (r := u' ++ _) (by rw [he] at h; exact h) hc
    obtain ⟨q, e', k1, k2, k3⟩ := front_block hl hz (hr.mono (by omega)) (b := .space) rfl (by rw [he]; simpa using g3)
    exact ⟨q, e', .compact g1 k1, k2, k3⟩
  | _, _, _, _, .under hw hm hl => fun hz hr h hs => by
    simp only [List.append_assoc] at h
    obtain ⟨q1, g1, g2⟩ := h.eol hw (by simp) (lineStart' (block_visible hl)) .block
    obtain ⟨m1, b', m2, m3⟩ := g2.enter' (block_visible hl)
    obtain ⟨q, e', k1, k2, k3⟩ := front_block hl hz (hr.mono (by omega)) m2 m3
    exact ⟨q, e', .under g1 m1 hm k1, k2, k3⟩
  | _, _, _, _, .underProps hu hv hw hm hl => fun hz hr h hs => by
    simp only [List.append_assoc] at h
    obtain ⟨q1, b1, hb1, g1, h1⟩ := h.sep' hu (props_visible hv) .block hs
    obtain ⟨q2, cx, hc, h2, hs2, g2⟩ := h1.props hb1 hv (eol_parts hw (by simp)).1
    obtain ⟨y', g2, hy⟩ := g2 .invalid rfl
    obtain ⟨q3, g3, h3⟩ := h2.eol hw (by simp) (lineStart' (block_visible hl)) hc
    obtain ⟨m1, b', m2, m3⟩ := h3.enter' (block_visible hl)
    obtain ⟨q, e', k1, k2, k3⟩ := front_block hl hz (hr.mono (by omega)) m2 m3
    exact ⟨q, _, .underProps g1 g2 g3 m1 hm k1, by simp [tidy, hy, k2], k3⟩

theorem front_pairs : ∀ {n : Nat} {z : Bool} {u : List Char} {es : List Node}, BlockText.Pairs n z u es → ∀ {s : Lexer} {p : Nat}
    {b : TokType} {r : List Char}, (z = true → r = []) → LineStart (n + 1) r → b.mayPrecedeWord = true → Front s newCtx p b (u ++ r) →
    ∃ q es', Pairs (toks s) n p es' q ∧ tidies es' = es ∧ After s q r
  | _, _, _, _, .last hk hv => fun hz hr hb h => by
    simp only [List.cons_append, List.append_assoc] at h
    obtain ⟨q0, g1, g2, g3, g4, g5⟩ := Front.key h hb hk hv hz
    obtain ⟨q, e', k1, k2, k3⟩ := front_value hv hz hr g4 g5
    exact ⟨q, _, .last g1 g2 g3 k1, by simp [tidies, tidy, atom_tidy hk, k2], k3⟩
  | _, _, _, _, .cons hk hv his => fun hz hr hb h => by
    simp only [List.cons_append, List.append_assoc] at h
    obtain ⟨q0, g1, g2, g3, g4, g5⟩ := Front.key h hb hk hv (by simp)
    obtain ⟨q, e', k1, k2, k3⟩ := front_value hv (by simp) (lineStart' (pairs_visible his)) g4 g5
    obtain ⟨m1, b', m2, m3⟩ := k3.enter' (pairs_visible his)
    obtain ⟨q2, es', n1, n2, n3⟩ := front_pairs his hz hr m2 m3
    exact ⟨q2, _, .cons g1 g2 g3 k1 m1 n1, by simp [tidies, tidy, atom_tidy hk, k2, n2], n3⟩

  | _, _, _, _, .keyLast hx => fun hz hr hb h => by
    simp only [List.cons_append, List.append_assoc] at h
    obtain ⟨g1, g2, g3⟩ := Front.ask h hb hx hz
    obtain ⟨q, e', k1, k2, k3⟩ := front_field hx hz hr g2 g3
    exact ⟨q, _, .keyLast h.pos g1 k1, by simp [tidies, tidy, k2, Node.null], k3⟩
  | _, _, _, _, .keyCons hx his => fun hz hr hb h => by
    simp only [List.cons_append, List.append_assoc] at h
    obtain ⟨g1, g2, g3⟩ := Front.ask h hb hx (by simp)
    obtain ⟨q, e', k1, k2, k3⟩ := front_field hx (by simp) (lineStart' (pairs_visible his)) g2 g3
    obtain ⟨m1, b', m2, m3⟩ := k3.enter' (pairs_visible his)
    obtain ⟨q2, es', n1, n2, n3⟩ := front_pairs his hz hr m2 m3
    exact ⟨q2, _, .keyCons h.pos g1 k1 m1 n1, by simp [tidies, tidy, k2, n2, Node.null], n3⟩
  | _, _, _, _, .entryLast hx hv => fun hz hr hb h => by
    simp only [List.cons_append, List.append_assoc] at h
    obtain ⟨g1, g2, g3⟩ := Front.ask h hb hx (by simp)
    obtain ⟨q, e', k1, k2, k3⟩ := front_field hx (by simp) (lineStart_sp (by simp [Visible])) g2 g3
    obtain ⟨m1, b', m2, m3⟩ := k3.enter (by simp [Visible])
    obtain ⟨g4, g5, g6⟩ := Front.answer m3 hv hz
    obtain ⟨q2, v', n1, n2, n3⟩ := front_field hv hz hr g5 g6
    exact ⟨q2, _, .entryLast h.pos g1 k1 k3.pos m1 g4 n1, by simp [tidies, tidy, k2, n2], n3⟩
  | _, _, _, _, .entryCons hx hv his => fun hz hr hb h => by
    simp only [List.cons_append, List.append_assoc] at h
    obtain ⟨g1, g2, g3⟩ := Front.ask h hb hx (by simp)
    obtain ⟨q, e', k1, k2, k3⟩ := front_field hx (by simp) (lineStart_sp (by simp [Visible])) g2 g3
    obtain ⟨m1, b', m2, m3⟩ := k3.enter (by simp [Visible])
    obtain ⟨g4, g5, g6⟩ := Front.answer m3 hv (by simp)
    obtain ⟨q2, v', n1, n2, n3⟩ := front_field hv (by simp) (lineStart' (pairs_visible his)) g5 g6
    obtain ⟨o1, b2, o2, o3⟩ := n3.enter' (pairs_visible his)
    obtain ⟨q3, es', w1, w2, w3⟩ := front_pairs his hz hr o2 o3
    exact ⟨q3, _, .entryCons h.pos g1 k1 k3.pos m1 g4 n1 o1 w1, by simp [tidies, tidy, k2, n2, w2], w3⟩

theorem front_value : ∀ {n : Nat} {z : Bool} {u : List Char} {e : Node}, BlockText.Value n z u e → ∀ {s : Lexer} {p : Nat} {b : TokType}
    {r : List Char}, (z = true → r = []) → LineStart (n + 1) r → Front s newCtx p b (u ++ r) → solW (toks s) p = false →
    ∃ q e', Val (toks s) n p e' q ∧ tidy e' = e ∧ After s q r
  | _, _, _, _, .leaf hl => fun hz hr h hs => by
    obtain ⟨q, e', g1, g2, g3⟩ := h.leaf hs hl hz (hr.mono (by omega))
    exact ⟨q, e', .leaf g1, g2, g3⟩
  | _, _, _, _, .bare hl => fun hz hr h hs => by
    obtain ⟨q, e', g1, g2, g3⟩ := h.bare hs hl hz hr
    exact ⟨q, e', .bare g1, g2, g3⟩
  | _, _, _, _, .null hl => fun hz hr h hs => by
    obtain ⟨q, g1, g2⟩ := h.eol hl hz hr .block
    exact ⟨q, _, .null g1, by simp [tidy, Node.null], g2⟩
  | _, _, _, _, .under hw hm hl => fun hz hr h hs => by
    simp only [List.append_assoc] at h
    obtain ⟨q1, g1, g2⟩ := h.eol hw (by simp) (lineStart' (block_visible hl)) .block
    obtain ⟨m1, b', m2, m3⟩ := g2.enter' (block_visible hl)
    obtain ⟨q, e', k1, k2, k3⟩ := front_block hl hz (hr.mono (by omega)) m2 m3
    exact ⟨q, e', .under g1 m1 hm k1, k2, k3⟩
  | _, _, _, _, .flush hw hl => fun hz hr h hs => by
    simp only [List.append_assoc] at h
    obtain ⟨q1, g1, g2⟩ := h.eol hw (by simp) (lineStart' (items_visible hl)) .block
    obtain ⟨m1, b', m2, m3⟩ := g2.enter' (items_visible hl)
    obtain ⟨q, e', k1, k2, k3⟩ := front_items hl hz hr m2 m3
    exact ⟨q, _, .flush g1 m1 k1, by simp [tidy, k2], k3⟩
  | _, _, _, _, .underProps hu hv hw hm hl => fun hz hr h hs => by
    simp only [List.append_assoc] at h
    obtain ⟨q1, b1, hb1, g1, h1⟩ := h.sep' hu (props_visible hv) .block hs
    obtain ⟨q2, cx, hc, h2, hs2, g2⟩ := h1.props hb1 hv (eol_parts hw (by simp)).1
    obtain ⟨y', g2, hy⟩ := g2 .invalid rfl
    obtain ⟨q3, g3, h3⟩ := h2.eol hw (by simp) (lineStart' (block_visible hl)) hc
    obtain ⟨m1, b', m2, m3⟩ := h3.enter' (block_visible hl)
    obtain ⟨q, e', k1, k2, k3⟩ := front_block hl hz (hr.mono (by omega)) m2 m3
    exact ⟨q, _, .underProps g1 g2 g3 m1 hm k1, by simp [tidy, hy, k2], k3⟩
  | _, _, _, _, .flushProps hu hv hw hl => fun hz hr h hs => by
    simp only [List.append_assoc] at h
    obtain ⟨q1, b1, hb1, g1, h1⟩ := h.sep' hu (props_visible hv) .block hs
    obtain ⟨q2, cx, hc, h2, hs2, g2⟩ := h1.props hb1 hv (eol_parts hw (by simp)).1
    obtain ⟨q3, g3, h3⟩ := h2.eol hw (by simp) (lineStart' (items_visible hl)) hc
    obtain ⟨i, hi⟩ := g3.sp
    obtain ⟨y', g2, hy⟩ := g2 (absent (decide (0 < i))) absence_absent
    obtain ⟨m1, b', m2, m3⟩ := h3.enter' (items_visible hl)
    obtain ⟨q, e', k1, k2, k3⟩ := front_items hl hz hr m2 m3
    exact ⟨q, _, .flushProps g1 g2 hi g3 m1 k1, by simp [tidy, hy, k2], k3⟩

theorem front_field : ∀ {n : Nat} {z : Bool} {u : List Char} {e : Node}, BlockText.Field n z u e → ∀ {s : Lexer} {p : Nat} {b : TokType}
    {r : List Char}, (z = true → r = []) → LineStart (n + 1) r → Front s newCtx p b (u ++ r) → solW (toks s) p = false →
    ∃ q e', Fld (toks s) n p e' q ∧ tidy e' = e ∧ After s q r
  | _, _, _, _, .value hl => fun hz hr h hs => by
    obtain ⟨q, e', g1, g2, g3⟩ := front_value hl hz hr h hs
    exact ⟨q, e', .val g1, g2, g3⟩
  | _, _, _, _, .compact hl => fun hz hr h hs => by
    simp only [List.append_assoc] at h
    obtain ⟨c, u', he, hc⟩ := block_visible hl
    obtain ⟨g1, g2, g3⟩ := Front.lineSp (r := u' ++ _) (by rw [he] at h; exact h) hc
    obtain ⟨q, e', k1, k2, k3⟩ := front_block hl hz (hr.mono (by omega)) (b := .space) rfl (by rw [he]; simpa using g3)
    exact ⟨q, e', .compact g1 k1, k2, k3⟩
end

end Verif.Parser
