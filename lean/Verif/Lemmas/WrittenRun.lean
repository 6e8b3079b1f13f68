import Verif.Lemmas.TextDocs
import Verif.Lemmas.Layout
import Verif.Spec.TreeEq
import Verif.Spec.WritableTree

/-!
The lines of a tree without escapes are a text in block style.
-/

set_option linter.unusedSimpArgs false
set_option linter.unusedSectionVars false

namespace Verif.Parser

open Verif.Token Verif.Lexer Verif.Ast Verif.Layout
open Verif.PlainTree hiding reread rereads hasNull haveNull Plain Coll Rest Entry Entries
open Verif.WritableTree (reread rereads hasNull haveNull)
open Verif.BlockText (sp tidy tidies)
open Verif.Writer (tailText tailText_map tailText_append)

variable {s : Lexer} {p q n : Nat} {b : TokType} {r t : List Char} {e v : Node} {es : List Node}

theorem tailText_cons (n : Nat) {l : Layout.Line} (ls : List Layout.Line) (h : l ≠ []) :
    tailText n (l :: ls) = List.replicate n ' ' ++ (l ++ '\n' :: tailText n ls) := by
  simp [tailText, pad, h]

theorem PlainTree.Word.ne {w : List Char} (h : PlainTree.Word w) : w ≠ [] := by
  obtain ⟨c, v, rfl, _⟩ := h.first
  simp

theorem phrase_ne (h : Phrase t) : t ≠ [] := by
  cases h with
  | word h => exact PlainTree.Word.ne h
  | more h => simp [PlainTree.Word.ne h]

theorem phrase_noNL (h : Phrase t) : '\n' ∉ t := by
  have hw : ∀ {w}, PlainTree.Word w → '\n' ∉ w := fun h h1 => h.chars _ h1 (by decide)
  induction h with
  | word h => exact hw h
  | more h _ ih => simp [hw h, ih]

theorem leaf_phrase {qt : Quoting} (h : Phrase t) (hq : PlainTree.Bare qt) : leaf (.text t qt) = some [t] := by
  have := phrase_noNL h
  cases hq <;> simp [leaf, this]

theorem clause_ne (h : Clause t) : t ≠ [] := by
  have hw : ∀ {w}, LooseWord w → w ≠ [] := fun h => by
    obtain ⟨c, v, rfl, _⟩ := h.first
    simp
  cases h with
  | word h => exact hw h
  | more h => simp [hw h]

theorem clause_noNL (h : Clause t) : '\n' ∉ t := by
  have hw : ∀ {w}, LooseWord w → '\n' ∉ w := fun h h1 => h.chars _ h1 (by decide)
  induction h with
  | word h => exact hw h
  | more h _ ih => simp [hw h, ih]

theorem leaf_sentence {qt : Quoting} (h : Sentence t) (hq : PlainTree.Bare qt) : leaf (.text t qt) = some [t] := by
  have := clause_noNL h.words
  cases hq <;> simp [leaf, this]

theorem null_phrase : Phrase ['n', 'u', 'l', 'l'] := .word ⟨by decide, ⟨_, _, rfl, by decide⟩, by decide, by decide⟩

theorem json_char {c : Char} (h : 0x20 ≤ c.toNat) : YamlChar.isJSONChar c = true := by
  have h5 : c.toNat ≤ 0x10FFFF := by
    rcases c.valid with h | h
    · have : c.toNat < 0xd800 := h
      omega
    · have : c.toNat < 0x110000 := h.2
      omega
  simp [YamlChar.isJSONChar, h, h5]

theorem double_verbatim : ∀ {t : List Char}, Verbatim .double t → YamlChar.convertToDouble t = t
  | [], _ => rfl
  | c :: t, h => by
    obtain ⟨h1, h2⟩ := h c (by simp)
    have ih := double_verbatim (t := t) (fun e he => h e (by simp [he]))
    have hl : YamlChar.escapeTable.lookup c.toNat = none := by
      rw [List.lookup_eq_none_iff]
      intro p hp
      simp only [special, List.mem_cons, List.not_mem_nil, not_or] at h2
      simp only [YamlChar.escapeTable, List.mem_cons, List.not_mem_nil] at hp
      rcases hp with rfl | rfl | rfl | rfl | rfl | rfl | rfl | rfl | rfl | rfl | rfl | rfl | rfl | rfl | rfl | hp
      all_goals first | (simp only [bne_iff_ne, ne_eq]; omega) | cases hp
    have he : YamlChar.escapeCharacter c = none := by
      simp [YamlChar.escapeCharacter, YamlChar.escapeASCII, hl, YamlChar.escapeUnicode, json_char h1]
    have : YamlChar.convertToDouble (c :: t) = c :: YamlChar.convertToDouble t := by
      simp [YamlChar.convertToDouble, he]
    rw [this, ih]

theorem single_verbatim : ∀ {t : List Char}, Verbatim .single t → singleQuoted t = '\'' :: (t ++ ['\''])
  | [], _ => rfl
  | c :: t, h => by
    obtain ⟨h1, h2⟩ := h c (by simp)
    have ih := single_verbatim (t := t) (fun e he => h e (by simp [he]))
    have n5 : c ≠ '\'' := by rintro rfl; simp [special] at h2
    simp only [singleQuoted, List.flatMap_cons, n5, if_false, List.cons_append, List.nil_append, List.cons.injEq, true_and] at ih ⊢
    exact ih

theorem verbatim_noNL {qt : Quoting} (h : Verbatim qt t) : '\n' ∉ t := by
  intro hm
  have := (h _ hm).1
  simp at this

theorem leaf_quoted {qt : Quoting} (h : Verbatim qt t) (hq : Quotes qt) :
    ∃ d, qt = quoteKind d ∧ leaf (.text t qt) = some [quoteChar d :: (t ++ [quoteChar d])] := by
  cases hq with
  | double => exact ⟨true, rfl, by simp [leaf, doubleQuoted, double_verbatim h, quoteChar]⟩
  | single => exact ⟨false, rfl, by simp [leaf, single_verbatim h, quoteChar, verbatim_noNL h]⟩

/-! ### What the lines of a tree are read as -/

theorem eol_line {z : Bool} : BlockText.Eol z ['\n'] := .line (i := 0) .none (.inr rfl) .nil

/-- A key on its line. -/
def ReadsKey (e : Node) : Prop := ∃ u, leaf e = some [u] ∧ shape e = some ⟨[], false, [u]⟩ ∧ u ≠ [] ∧
  BlockText.Atom u (reread e)

/-- Properties. -/
def ReadsMarks (e : Node) : Prop := ∃ v, marks e = some (' ' :: v) ∧ BlockText.Props v (reread e)

/-- A scalar with its properties. -/
def ReadsLeaf (e : Node) : Prop := ∃ m u ls, shape e = some ⟨m, false, u :: ls⟩ ∧
  ∀ n, BlockText.Leaf (n + 1) false (m ++ ' ' :: (u ++ '\n' :: tailText (n + 2) ls)) (reread e)

/-- A collection. -/
def ReadsColl (e : Node) : Prop := ∃ l0 ls, shape e = some ⟨[], true, l0 :: ls⟩ ∧ l0 ≠ [] ∧
  ∀ n, BlockText.Block n false (l0 ++ '\n' :: tailText n ls) (reread e)

/-- A collection with properties. -/
def ReadsMarked (e : Node) : Prop := ∃ v x c l0 ls, shape e = some ⟨' ' :: v, true, l0 :: ls⟩ ∧ l0 ≠ [] ∧
  reread e = .content x c ∧ BlockText.Props v x ∧ ∀ n, BlockText.Block n false (l0 ++ '\n' :: tailText n ls) c

/-- An item of a sequence. -/
def ReadsItem (e : Node) : Prop := ReadsColl e ∨ ReadsLeaf e

/-- A value of a mapping. -/
def ReadsValue (e : Node) : Prop := ReadsItem e ∨ ReadsMarked e

/-- Items of a sequence. -/
def ReadsItems (es : List Node) : Prop := ∃ l0 ls, items es = some (l0 :: ls) ∧ l0 ≠ [] ∧
  ∀ n, BlockText.Items n false (l0 ++ '\n' :: tailText n ls) (rereads es)

/-- Entries of a mapping. -/
def ReadsPairs (es : List Node) : Prop := ∃ l0 ls, entries es = some (l0 :: ls) ∧ l0 ≠ [] ∧
  ∀ n, BlockText.Pairs n false (l0 ++ '\n' :: tailText n ls) (rereads es)

/-- An entry of a mapping: the first line, and the others. -/
def ReadsEntry (e : Node) : Prop := ∃ k v l0 ls, e = .mappingEntry k v ∧ l0 ≠ [] ∧
  (∀ es rest, entries es = some rest → entries (.mappingEntry k v :: es) = some (l0 :: ls ++ rest)) ∧
  ∀ n, ∃ t u k' v', l0 ++ '\n' :: tailText n ls = t ++ (sp 0 ++ ':' :: u) ∧ reread e = .mappingEntry k' v' ∧
    BlockText.Atom t k' ∧ BlockText.Value n false u v'

/-- The first line of an item, and the others. -/
theorem reads_item (h : ReadsItem e) : ∃ l0 ls, l0 ≠ [] ∧
    (∀ es rest, items es = some rest → items (e :: es) = some (l0 :: ls ++ rest)) ∧
    ∀ n, ∃ u, l0 ++ '\n' :: tailText n ls = '-' :: u ∧ BlockText.Item n false u (reread e) := by
  rcases h with ⟨l0, ls, h1, h2, h3⟩ | ⟨m, t, ls, h1, h3⟩
  · refine ⟨'-' :: ' ' :: l0, ls.map (pad 2), by simp, fun es rest hr => ?_, fun n => ⟨_, rfl, ?_⟩⟩
    · simp [items, h1, hr, hang]
    · rw [tailText_map]
      exact .compact (j := 0) (h3 (n + 2))
  · refine ⟨'-' :: (m ++ ' ' :: t), ls.map (pad 2), by simp, fun es rest hr => ?_, fun n => ⟨_, rfl, ?_⟩⟩
    · simp [items, h1, hr, hang]
    · rw [tailText_map]
      have := h3 n
      simpa using BlockText.Item.leaf this

theorem reads_items (h : ReadsItem e) (hs : es = [] ∨ ReadsItems es) : ReadsItems (e :: es) := by
  obtain ⟨l0, ls, h1, h2, h3⟩ := reads_item h
  rcases hs with rfl | ⟨k0, ks, g1, g2, g3⟩
  · refine ⟨l0, ls, by simpa using h2 [] [] rfl, h1, fun n => ?_⟩
    obtain ⟨u, a1, a2⟩ := h3 n
    rw [a1]
    exact .last a2
  · refine ⟨l0, ls ++ k0 :: ks, by simpa using h2 es _ g1, h1, fun n => ?_⟩
    obtain ⟨u, a1, a2⟩ := h3 n
    have := BlockText.Items.cons a2 (g3 n)
    rw [← List.cons_append, ← a1] at this
    rw [tailText_append, tailText_cons n ks g2]
    rw [rereads]
    simpa [sp] using this

theorem reads_entry {k : Node} (hk : ReadsKey k) (h : ReadsValue v) : ReadsEntry (.mappingEntry k v) := by
  obtain ⟨t, hl, -, hne, ht⟩ := hk
  rcases h with (⟨l0, ls, h1, h2, h3⟩ | ⟨m, u, ls, h1, h3⟩) | ⟨w, x, c, l0, ls, h1, h2, h3, h4, h5⟩
  · refine ⟨_, _, t ++ [':'], pad 2 l0 :: ls.map (pad 2), rfl, by simp, fun es rest hr => ?_, fun n =>
      ⟨t, ['\n'] ++ (sp (n + 2) ++ (l0 ++ '\n' :: tailText (n + 2) ls)), _, _, ?_, by rw [reread], ht,
        .under eol_line (by omega) (h3 (n + 2))⟩⟩
    · simp [entries, h1, hr, hl]
    · rw [← List.map_cons, tailText_map, tailText_cons _ _ h2]
      simp [sp]
  · refine ⟨_, _, t ++ ':' :: (m ++ ' ' :: u), ls.map (pad 2), rfl, by simp, fun es rest hr => ?_, fun n =>
      ⟨t, _, _, _, ?_, by rw [reread], ht, .leaf (h3 n)⟩⟩
    · simp [entries, h1, hr, hl, hang]
    · rw [tailText_map]
      simp [sp]
  · refine ⟨_, _, t ++ ':' :: ' ' :: w, pad 2 l0 :: ls.map (pad 2), rfl, by simp, fun es rest hr => ?_, fun n =>
      ⟨t, sp 1 ++ (w ++ (['\n'] ++ (sp (n + 2) ++ (l0 ++ '\n' :: tailText (n + 2) ls)))), _, _, ?_, by rw [reread, h3], ht,
        .underProps (.mid (i := 0)) h4 eol_line (by omega) (h5 (n + 2))⟩⟩
    · simp [entries, h1, hr, hl]
    · rw [← List.map_cons, tailText_map, tailText_cons _ _ h2]
      simp [sp]

theorem reads_pairs (h : ReadsEntry e) (hs : es = [] ∨ ReadsPairs es) : ReadsPairs (e :: es) := by
  obtain ⟨k, v, l0, ls, rfl, h1, h2, h3⟩ := h
  rcases hs with rfl | ⟨k0, ks, g1, g2, g3⟩
  · refine ⟨l0, ls, by simpa using h2 [] [] rfl, h1, fun n => ?_⟩
    obtain ⟨t, u, k', v', a1, a2, a3, a4⟩ := h3 n
    rw [rereads, a2, a1]
    exact .last a3 a4
  · refine ⟨l0, ls ++ k0 :: ks, by simpa using h2 es _ g1, h1, fun n => ?_⟩
    obtain ⟨t, u, k', v', a1, a2, a3, a4⟩ := h3 n
    have := BlockText.Pairs.cons (i := 0) a3 a4 (g3 n)
    rw [rereads, a2, tailText_append, tailText_cons n ks g2]
    have e1 : l0 ++ '\n' :: (tailText n ls ++ (List.replicate n ' ' ++ (k0 ++ '\n' :: tailText n ks))) =
        t ++ (sp 0 ++ ':' :: (u ++ (sp n ++ (k0 ++ '\n' :: tailText n ks)))) := by
      have := congrArg (· ++ (List.replicate n ' ' ++ (k0 ++ '\n' :: tailText n ks))) a1
      simpa [sp] using this
    rw [e1]
    exact this

theorem scalar_reads (h : Scalar e) : ∃ u, leaf e = some [u] ∧ shape e = some ⟨[], false, [u]⟩ ∧ u ≠ [] ∧
    BlockText.Scalar u (reread e) := by
  cases h with
  | @text t qt ht hq =>
    refine ⟨_, leaf_phrase ht hq, by simp [shape, leaf_phrase ht hq], phrase_ne ht, ?_⟩
    have : reread (.text t qt) = .text t .unknown := by cases hq <;> rfl
    rw [this]
    exact .phrase ht
  | null => exact ⟨_, rfl, by simp [shape, leaf], phrase_ne null_phrase, .phrase null_phrase⟩
  | @quoted t qt hq hv =>
    obtain ⟨d, rfl, hl⟩ := leaf_quoted hv hq
    refine ⟨_, hl, by simp [shape, hl], by simp, ?_⟩
    cases d with
    | true => exact .double hv.within
    | false => exact .single hv.within

theorem sentence_reads {qt : Quoting} (h : Sentence t) (hq : PlainTree.Bare qt) : ∃ u, leaf (.text t qt) = some [u] ∧
    shape (.text t qt) = some ⟨[], false, [u]⟩ ∧ u ≠ [] ∧ BlockText.Body m u (reread (.text t qt)) := by
  refine ⟨_, leaf_sentence h hq, by simp [shape, leaf_sentence h hq], clause_ne h.words, ?_⟩
  have : reread (.text t qt) = .text t .unknown := by cases hq <;> rfl
  rw [this]
  exact .sentence h

theorem field_reads (h : PlainTree.Field e) : ∃ u, leaf e = some [u] ∧ shape e = some ⟨[], false, [u]⟩ ∧ u ≠ [] ∧
    BlockText.Body m u (reread e) := by
  cases h with
  | scalar h =>
    obtain ⟨u, h1, h2, h3, h4⟩ := scalar_reads h
    exact ⟨u, h1, h2, h3, .scalar h4⟩
  | sentence h hq => exact sentence_reads h hq

theorem name_noNL {a : List Char} (h : BlockText.Name a) : '\n' ∉ a := fun hm => by
  have := h.chars _ hm
  revert this
  decide

theorem key_reads (h : WritableTree.Key e) : ReadsKey e := by
  cases h with
  | scalar h =>
    obtain ⟨u, h1, h2, h3, h4⟩ := scalar_reads h
    exact ⟨u, h1, h2, h3, .scalar h4⟩
  | @ref a h =>
    have hl : leaf (.alias a) = some ['*' :: a] := by simp [leaf, name_noNL h]
    exact ⟨_, hl, by simp [shape, hl], by simp, .ref h⟩

theorem absent_invalid {x : Node} (h : WritableTree.Absent x) : validNode x = false ∧ BlockText.absence x = .nil := by
  cases h <;> exact ⟨rfl, rfl⟩

theorem marks_reads (h : WritableTree.Marks e) : ReadsMarks e := by
  cases h with
  | @both t a h1 h2 h3 =>
    refine ⟨'!' :: '!' :: (t ++ (sp 1 ++ '&' :: a)), ?_, ?_⟩
    · simp [marks, name_noNL h1, name_noNL h3, sp]
    · exact .tagAnchor (j := 0) (.two h1 h2) h3
  | @tag t x h1 h2 h3 =>
    obtain ⟨g1, g2⟩ := absent_invalid h3
    refine ⟨'!' :: '!' :: t, ?_, ?_⟩
    · cases h3 <;> simp [marks, name_noNL h1, g1, Node.invalid]
    · rw [reread, g2]
      exact .tag (.two h1 h2)
  | @anchor a x h1 h2 =>
    obtain ⟨g1, g2⟩ := absent_invalid h1
    refine ⟨'&' :: a, ?_, ?_⟩
    · cases h1 <;> simp [marks, name_noNL h2, g1, Node.invalid]
    · rw [reread, g2]
      exact .anchor h2

/-- The lines of a literal scalar after its first one. -/
theorem lines_reads (m : Nat) : ∀ {ls : List Layout.Line}, (∀ l ∈ ls, l = [] ∨ BlockText.LitLine l) → ∃ u v i g,
    '\n' :: tailText m ls = u ++ '\n' :: g ∧ BlockText.Lines m u v ∧ BlockText.Voids m i g ∧
      '\n' :: unlines ls = v ++ '\n' :: List.replicate i '\n'
  | [], _ => ⟨[], [], 0, [], by simp [tailText], .stop, .nil, by simp [unlines]⟩
  | l :: ls, h => by
    obtain ⟨u, v, i, g, h1, h2, h3, h4⟩ := lines_reads m (ls := ls) (fun l hl => h l (by simp [hl]))
    have e4 : unlines (l :: ls) = l ++ ('\n' :: unlines ls) := by simp [unlines]
    rcases h l (by simp) with rfl | hl
    · have e1 : tailText m ([] :: ls) = '\n' :: tailText m ls := by simp [tailText, pad]
      rw [e1, e4, h1, h4]
      cases h2 with
      | stop => exact ⟨[], [], i + 1, '\n' :: g, rfl, .stop, .cons (j := 0) (by omega) h3, by simp [List.replicate_succ]⟩
      | @more i' g' t u v hg ht hu =>
        refine ⟨_, _, i, g, ?_, .more (.cons (j := 0) (Nat.zero_le _) hg) ht hu, h3, ?_⟩
        · simp [sp]
        · simp [List.replicate_succ]
    · rw [tailText_cons m ls hl.some, e4, h1, h4]
      refine ⟨_, _, i, g, ?_, .more .nil hl h2, h3, ?_⟩
      · simp [sp]
      · simp

theorem linesOf_cons {t : List Char} (h : t ≠ []) : linesOf t ≠ [] := by
  cases t with
  | nil => exact absurd rfl h
  | cons c t =>
    simp only [linesOf]
    split
    · simp
    · split <;> simp

theorem unlines_linesOf : ∀ {t : List Char}, t ≠ [] → unlines (linesOf t) = if t.getLast? = some '\n' then t else t ++ ['\n']
  | [], h => absurd rfl h
  | [c], _ => by
    by_cases hc : c = '\n' <;> simp [linesOf, unlines, hc]
  | c :: d :: t, _ => by
    have ih := unlines_linesOf (t := d :: t) (by simp)
    have e1 : (c :: d :: t).getLast? = (d :: t).getLast? := by simp
    rw [e1]
    have e2 : unlines (linesOf (c :: d :: t)) = c :: unlines (linesOf (d :: t)) := by
      rw [linesOf]
      by_cases hc : c = '\n'
      · simp [hc, unlines]
      · rw [if_neg hc]
        cases hl : linesOf (d :: t) with
        | nil => exact absurd hl (linesOf_cons (by simp))
        | cons l ls => simp [unlines]
    rw [e2, ih]
    split <;> rfl

theorem linesOf_head {c : Char} {t : List Char} (h : c ≠ '\n') : ∃ l ls, linesOf (c :: t) = (c :: l) :: ls := by
  rw [linesOf, if_neg h]
  cases linesOf t with
  | nil => exact ⟨[], [], rfl⟩
  | cons l ls => exact ⟨l, ls, rfl⟩

/-- A text of several lines. -/
theorem prose_reads (h : WritableTree.Prose t) : ∃ u ls, leaf (.text t .absent) = some (u :: ls) ∧
    ∀ n m, BlockText.Literal n m false (u ++ '\n' :: tailText m ls) t := by
  obtain ⟨c, r, rfl, hc⟩ := h.first
  have hn : c ≠ '\n' := by rintro rfl; exact hc (by decide)
  obtain ⟨l, ls, hl⟩ := linesOf_head (t := r) hn
  have hh := h.lines
  rw [hl] at hh
  have hlit : BlockText.LitLine (c :: l) := (hh _ (by simp)).resolve_left (by simp)
  refine ⟨['|', if (c :: r).getLast? = some '\n' then '+' else '-'], linesOf (c :: r), by rw [leaf, if_pos h.several, literal], fun n m => ?_⟩
  obtain ⟨u, v, i, g, h1, h2, h3, h4⟩ := lines_reads m (ls := ls) (fun l hl => hh l (by simp [hl]))
  have ht := unlines_linesOf (t := c :: r) (by simp)
  have e4 : unlines (linesOf (c :: r)) = (c :: l) ++ (v ++ '\n' :: List.replicate i '\n') := by
    rw [← h4, hl]; simp [unlines]
  rw [e4] at ht
  have e1 : tailText m (linesOf (c :: r)) = sp m ++ ((c :: l) ++ (u ++ '\n' :: g)) := by
    rw [hl, tailText_cons m ls (by simp), h1, sp]
  rw [e1]
  have mk := fun ch => BlockText.Literal.mk (n := n) (m := m) (z := false) (ch := ch) (i := 0) (a := []) .none .none (.inr rfl) hlit
    (fun d hd => by
      simp only [List.head?_cons, Option.some.injEq] at hd
      subst hd
      simp only [List.mem_cons, not_or] at hc ⊢
      exact ⟨hc.1, hc.2.1, by simp⟩) h2 (.line h3) (by simp)
  by_cases hk : (c :: r).getLast? = some '\n'
  · rw [if_pos hk] at ht
    have := mk .keep
    simp only [BlockText.Chomp.sign, BlockText.Chomp.kept] at this
    rw [if_pos hk, ← ht]
    simpa [sp] using this
  · rw [if_neg hk] at ht
    have := mk .strip
    simp only [BlockText.Chomp.sign, BlockText.Chomp.kept, List.append_nil] at this
    have hi : c :: l ++ v = c :: r := by
      cases i with
      | zero =>
        have : (c :: l ++ v) ++ ['\n'] = (c :: r) ++ ['\n'] := by simpa using ht
        exact List.append_cancel_right this
      | succ i =>
        exfalso
        apply hk
        have e5 : (c :: l ++ (v ++ '\n' :: List.replicate i '\n')) ++ ['\n'] = (c :: r) ++ ['\n'] := by
          rw [← ht, List.replicate_succ', ]
          simp
        rw [← List.append_cancel_right e5]
        have : '\n' :: List.replicate i '\n' = List.replicate (i + 1) '\n' := rfl
        rw [this, List.replicate_succ', ← List.append_assoc, ← List.append_assoc, List.getLast?_append]
        simp
    rw [hi] at this
    rw [if_neg hk]
    simpa [sp] using this

theorem tailText_nil : tailText n [] = [] := rfl

theorem leaf_reads (h : WritableTree.Leaf e) : ReadsLeaf e := by
  cases h with
  | key h =>
    obtain ⟨u, -, h2, -, h4⟩ := key_reads h
    exact ⟨[], u, [], h2, fun n => .atom (.mid (i := 0)) h4.core eol_line⟩
  | sentence h hq =>
    obtain ⟨u, h1, h2, -, -⟩ := sentence_reads (m := 0) h hq
    refine ⟨[], u, [], h2, fun n => .atom (.mid (i := 0)) (.body ?_) eol_line⟩
    obtain ⟨u', h1', -, -, h4⟩ := sentence_reads (m := n + 1) h hq
    rw [h1, Option.some.injEq, List.cons.injEq] at h1'
    rw [h1'.1]
    exact h4
  | @marked p n hp hn =>
    obtain ⟨v, g1, g2⟩ := marks_reads hp
    obtain ⟨u, h1, h2, -, -⟩ := field_reads (m := 0) hn
    refine ⟨' ' :: v, u, [], by simp [shape, g1, h2], fun m => ?_⟩
    rw [reread]
    obtain ⟨u', h1', -, -, h4⟩ := field_reads (m := m + 1) hn
    rw [h1, Option.some.injEq, List.cons.injEq] at h1'
    rw [← h1'.1] at h4
    have := BlockText.Leaf.props (n := m + 1) (z := false) (.mid (i := 0)) g2 (.mid (i := 0)) h4 eol_line
    simpa [sp, tailText_nil] using this
  | @prose t h =>
    obtain ⟨u, ls, h1, h2⟩ := prose_reads h
    refine ⟨[], u, ls, by simp [shape, h1], fun n => ?_⟩
    exact .lit (u := [' ']) (m := n + 2) (.mid (i := 0)) (by omega) (by omega) (h2 _ (n + 2))
  | @markedProse p t hp h =>
    obtain ⟨v, g1, g2⟩ := marks_reads hp
    obtain ⟨u, ls, h1, h2⟩ := prose_reads h
    refine ⟨' ' :: v, u, ls, by simp [shape, g1, h1], fun m => ?_⟩
    rw [reread]
    have := BlockText.Leaf.propsLit (n := m + 1) (z := false) (.mid (i := 0)) g2 (.mid (i := 0)) (Nat.le_succ _)
      (by omega) (h2 _ (m + 2))
    simpa [sp, reread, PlainTree.seen] using this

mutual
theorem item_reads : ∀ {e : Node}, WritableTree.Item e → ReadsItem e
  | _, .leaf h => .inr (leaf_reads h)
  | _, .coll h => .inl (coll_reads h)

theorem value_reads : ∀ {e : Node}, WritableTree.Value e → ReadsValue e
  | _, .item h => .inl (item_reads h)
  | _, .marked hp h => by
    obtain ⟨v, g1, g2⟩ := marks_reads hp
    obtain ⟨l0, ls, h1, h2, h3⟩ := coll_reads h
    exact .inr ⟨v, _, _, l0, ls, by simp [shape, g1, h1], h2, by rw [reread], g2, h3⟩

theorem coll_reads : ∀ {e : Node}, WritableTree.Coll e → ReadsColl e
  | _, .sequence h hs => by
    obtain ⟨l0, ls, h1, h2, h3⟩ := reads_items (item_reads h) (rest_reads hs)
    exact ⟨l0, ls, by simp [shape, h1], h2, fun n => by rw [reread]; exact .seq (h3 n)⟩
  | _, .mapping h hs => by
    obtain ⟨l0, ls, h1, h2, h3⟩ := reads_pairs (entry_reads h) (entries_reads hs)
    exact ⟨l0, ls, by simp [shape, h1], h2, fun n => by rw [reread]; exact .map (h3 n)⟩

theorem rest_reads : ∀ {es : List Node}, WritableTree.Items es → es = [] ∨ ReadsItems es
  | _, .nil => .inl rfl
  | _, .cons h hs => .inr (reads_items (item_reads h) (rest_reads hs))

theorem entry_reads : ∀ {e : Node}, WritableTree.Entry e → ReadsEntry e
  | _, .entry hk hv => reads_entry (key_reads hk) (value_reads hv)

theorem entries_reads : ∀ {es : List Node}, WritableTree.Entries es → es = [] ∨ ReadsPairs es
  | _, .nil => .inl rfl
  | _, .cons h hs => .inr (reads_pairs (entry_reads h) (entries_reads hs))
end

/-- The lines of the document, read again. -/
theorem document_reads (h : WritableTree.Coll e) : ∃ ls, document e = some ls ∧ BlockText.Stream (unlines ls) [reread e] := by
  obtain ⟨l0, ls, h1, h2, h3⟩ := coll_reads h
  refine ⟨l0 :: ls, by simp [document, h1], ?_⟩
  have e1 : unlines (l0 :: ls) = [] ++ ((sp 0 ++ (l0 ++ '\n' :: tailText 0 ls)) ++ []) := by
    have e2 : ∀ l : Layout.Line, pad 0 l = l := by intro l; simp [pad]
    simp [unlines, tailText, e2, sp]
  rw [e1]
  exact .mk (z := false) .nil (by simp) (.implicit (.block (h3 0)) (by simp) .done)

/-- A scalar as a document, with or without a line feed. -/
theorem core_document {u : List Char} (h4 : BlockText.Core 0 u e) : BlockText.Stream u [e] ∧ BlockText.Stream (u ++ ['\n']) [e] := by
  refine ⟨?_, ?_⟩
  · have := BlockText.Stream.mk (z := false) (g := []) .nil (by simp) (.implicit (v := []) (z := true)
      (.atom (m := 0) h4 (.last (i := 0) (u := []) .none (.inr rfl))) (by simp) .done)
    simpa [sp] using this
  · have := BlockText.Stream.mk (z := false) (g := []) .nil (by simp) (.implicit (v := []) (z := false)
      (.atom (m := 0) h4 eol_line) (by simp) .done)
    simpa [sp] using this

theorem scalar_document_reads (h : WritableTree.Key e) : ∃ u, leaf e = some [u] ∧ BlockText.Stream u [reread e] ∧
    BlockText.Stream (u ++ ['\n']) [reread e] := by
  obtain ⟨u, h1, -, -, h4⟩ := key_reads h
  exact ⟨u, h1, core_document h4.core⟩

theorem sentence_document_reads {qt : Quoting} (h : Sentence t) (hq : PlainTree.Bare qt) : ∃ u, leaf (.text t qt) = some [u] ∧
    BlockText.Stream u [reread (.text t qt)] ∧ BlockText.Stream (u ++ ['\n']) [reread (.text t qt)] := by
  obtain ⟨u, h1, -, -, h4⟩ := sentence_reads h hq
  exact ⟨u, h1, core_document (.body h4)⟩

/-! ### Trees without properties -/

theorem tidy_text {x : Node} {t : List Char} {qt : Quoting} (h : tidy x = .text t qt) : x = .text t qt := by
  cases x <;> simp_all [tidy]

theorem tidy_sequence {x : Node} {es : List Node} (h : tidy x = .sequence es) : ∃ es', x = .sequence es' ∧ tidies es' = es := by
  cases x <;> simp_all [tidy]

theorem tidy_mapping {x : Node} {es : List Node} (h : tidy x = .mapping es) : ∃ es', x = .mapping es' ∧ tidies es' = es := by
  cases x <;> simp_all [tidy]

theorem tidy_entry {x k v : Node} (h : tidy x = .mappingEntry k v) : ∃ k' v', x = .mappingEntry k' v' ∧ tidy k' = k ∧ tidy v' = v := by
  cases x <;> simp_all [tidy]

theorem tidies_cons {xs es : List Node} (h : tidies xs = e :: es) : ∃ x xs', xs = x :: xs' ∧ tidy x = e ∧ tidies xs' = es := by
  cases xs <;> simp_all [tidies]

theorem scalar_tidied {x : Node} (h : PlainTree.Scalar e) (hx : tidy x = PlainTree.reread e) : x = PlainTree.reread e := by
  cases h <;> (simp only [PlainTree.reread] at hx ⊢; exact tidy_text hx)

mutual
theorem plain_tidied : ∀ {e x : Node}, PlainTree.Plain e → tidy x = PlainTree.reread e → x = PlainTree.reread e
  | _, _, .scalar h, hx => scalar_tidied h hx
  | _, _, .sentence _ _, hx => by simp only [PlainTree.reread] at hx ⊢; exact tidy_text hx
  | _, _, .coll h, hx => coll_tidied h hx

theorem coll_tidied : ∀ {e x : Node}, PlainTree.Coll e → tidy x = PlainTree.reread e → x = PlainTree.reread e
  | _, _, .sequence h hs, hx => by
    rw [PlainTree.reread] at hx ⊢
    obtain ⟨es', rfl, h1⟩ := tidy_sequence hx
    rw [PlainTree.rereads] at h1 ⊢
    obtain ⟨x, xs, rfl, h2, h3⟩ := tidies_cons h1
    rw [plain_tidied h h2, rest_tidied hs h3]
  | _, _, .mapping h hs, hx => by
    rw [PlainTree.reread] at hx ⊢
    obtain ⟨es', rfl, h1⟩ := tidy_mapping hx
    rw [PlainTree.rereads] at h1 ⊢
    obtain ⟨x, xs, rfl, h2, h3⟩ := tidies_cons h1
    rw [entry_tidied h h2, entries_tidied hs h3]

theorem rest_tidied : ∀ {es xs : List Node}, PlainTree.Rest es → tidies xs = PlainTree.rereads es → xs = PlainTree.rereads es
  | _, xs, .nil, hx => by cases xs <;> simp_all [tidies, PlainTree.rereads]
  | _, _, .cons h hs, hx => by
    rw [PlainTree.rereads] at hx ⊢
    obtain ⟨x, xs, rfl, h2, h3⟩ := tidies_cons hx
    rw [plain_tidied h h2, rest_tidied hs h3]

theorem entry_tidied : ∀ {e x : Node}, PlainTree.Entry e → tidy x = PlainTree.reread e → x = PlainTree.reread e
  | _, _, .entry hk hv, hx => by
    rw [PlainTree.reread] at hx ⊢
    obtain ⟨k', v', rfl, h1, h2⟩ := tidy_entry hx
    rw [scalar_tidied hk h1, plain_tidied hv h2]

theorem entries_tidied : ∀ {es xs : List Node}, PlainTree.Entries es → tidies xs = PlainTree.rereads es → xs = PlainTree.rereads es
  | _, xs, .nil, hx => by cases xs <;> simp_all [tidies, PlainTree.rereads]
  | _, _, .cons h hs, hx => by
    rw [PlainTree.rereads] at hx ⊢
    obtain ⟨x, xs, rfl, h2, h3⟩ := tidies_cons hx
    rw [entry_tidied h h2, entries_tidied hs h3]
end


/-! ### Plain trees are writable -/

mutual
theorem plain_writable : ∀ {e : Node}, PlainTree.Plain e → WritableTree.Item e ∧ reread e = PlainTree.reread e
  | _, .scalar h => ⟨.leaf (.key (.scalar h)), by cases h <;> rfl⟩
  | _, .sentence h hq => ⟨.leaf (.sentence h hq), rfl⟩
  | _, .coll h => ⟨.coll (coll_writable h).1, (coll_writable h).2⟩

theorem coll_writable : ∀ {e : Node}, PlainTree.Coll e → WritableTree.Coll e ∧ reread e = PlainTree.reread e
  | _, .sequence h hs => ⟨.sequence (plain_writable h).1 (rest_writable hs).1, by
    rw [reread, rereads, PlainTree.reread, PlainTree.rereads, (plain_writable h).2, (rest_writable hs).2]⟩
  | _, .mapping h hs => ⟨.mapping (entry_writable h).1 (entries_writable hs).1, by
    rw [reread, rereads, PlainTree.reread, PlainTree.rereads, (entry_writable h).2, (entries_writable hs).2]⟩

theorem rest_writable : ∀ {es : List Node}, PlainTree.Rest es → WritableTree.Items es ∧ rereads es = PlainTree.rereads es
  | _, .nil => ⟨.nil, rfl⟩
  | _, .cons h hs => ⟨.cons (plain_writable h).1 (rest_writable hs).1, by
    rw [rereads, PlainTree.rereads, (plain_writable h).2, (rest_writable hs).2]⟩

theorem entry_writable : ∀ {e : Node}, PlainTree.Entry e → WritableTree.Entry e ∧ reread e = PlainTree.reread e
  | _, .entry hk hv => ⟨.entry (.scalar hk) (.item (plain_writable hv).1), by
    have : ∀ {k : Node}, PlainTree.Scalar k → reread k = PlainTree.reread k := fun h => by cases h <;> rfl
    rw [reread, PlainTree.reread, this hk, (plain_writable hv).2]⟩

theorem entries_writable : ∀ {es : List Node}, PlainTree.Entries es → WritableTree.Entries es ∧ rereads es = PlainTree.rereads es
  | _, .nil => ⟨.nil, rfl⟩
  | _, .cons h hs => ⟨.cons (entry_writable h).1 (entries_writable hs).1, by
    rw [rereads, PlainTree.rereads, (entry_writable h).2, (entries_writable hs).2]⟩
end

/-! ### Trees which are read back are the same -/

theorem tidy_alias {x : Node} {a : List Char} (h : tidy x = .alias a) : x = .alias a := by
  cases x <;> simp_all [tidy]

theorem tidy_content {x p c : Node} (h : tidy x = .content p c) : ∃ p' c', x = .content p' c' ∧ tidy p' = p ∧ tidy c' = c := by
  cases x <;> simp_all [tidy]

theorem tidy_properties {x t a : Node} (h : tidy x = .properties t a) :
    ∃ t' a', x = .properties t' a' ∧ BlockText.absence t' = t ∧ BlockText.absence a' = a := by
  cases x <;> simp_all [tidy]

theorem absence_tag {x : Node} {t : List Char} (h : BlockText.absence x = .tag t) : x = .tag t := by
  unfold BlockText.absence at h
  split at h <;> simp_all

theorem absence_anchor {x : Node} {t : List Char} (h : BlockText.absence x = .anchor t) : x = .anchor t := by
  unfold BlockText.absence at h
  split at h <;> simp_all

theorem absence_nil {x : Node} (h : BlockText.absence x = .nil) : TreeEq.Missing x := by
  unfold BlockText.absence at h
  split at h
  · exact .basic
  · rw [h]; exact .nil

theorem absent_missing {x : Node} (h : WritableTree.Absent x) : TreeEq.Missing x := by
  cases h
  · exact .nil
  · exact .basic

theorem marks_same {x : Node} (h : WritableTree.Marks e) (hx : tidy x = reread e) : TreeEq.Same e x := by
  cases h with
  | both =>
    rw [reread] at hx
    obtain ⟨t', a', rfl, h1, h2⟩ := tidy_properties hx
    rw [absence_tag h1, absence_anchor h2]
    exact .properties .tag .anchor
  | tag _ _ h =>
    rw [reread, (absent_invalid h).2] at hx
    obtain ⟨t', a', rfl, h1, h2⟩ := tidy_properties hx
    rw [absence_tag h1]
    exact .properties .tag (.missing (absent_missing h) (absence_nil h2))
  | anchor h =>
    rw [reread, (absent_invalid h).2] at hx
    obtain ⟨t', a', rfl, h1, h2⟩ := tidy_properties hx
    rw [absence_anchor h2]
    exact .properties (.missing (absent_missing h) (absence_nil h1)) .anchor

theorem scalar_same {x : Node} (h : Scalar e) (hx : tidy x = reread e) (hn : hasNull e = false) : TreeEq.Same e x := by
  cases h with
  | text => rw [reread] at hx; rw [tidy_text hx]; exact .text
  | quoted => rw [reread] at hx; rw [tidy_text hx]; exact .text
  | null => simp [hasNull] at hn

theorem field_same {x : Node} (h : PlainTree.Field e) (hx : tidy x = reread e) (hn : hasNull e = false) : TreeEq.Same e x := by
  cases h with
  | scalar h => exact scalar_same h hx hn
  | sentence => rw [reread] at hx; rw [tidy_text hx]; exact .text

theorem key_same {x : Node} (h : WritableTree.Key e) (hx : tidy x = reread e) (hn : hasNull e = false) : TreeEq.Same e x := by
  cases h with
  | scalar h => exact scalar_same h hx hn
  | ref => rw [reread] at hx; rw [tidy_alias hx]; exact .alias; all_goals simp

theorem leaf_same {x : Node} (h : WritableTree.Leaf e) (hx : tidy x = reread e) (hn : hasNull e = false) : TreeEq.Same e x := by
  cases h with
  | key h => exact key_same h hx hn
  | marked hp h =>
    rw [reread] at hx
    obtain ⟨p', c', rfl, h1, h2⟩ := tidy_content hx
    exact .content (marks_same hp h1) (field_same h h2 (by simpa [hasNull] using hn))
  | prose | sentence => rw [reread] at hx; rw [tidy_text hx]; exact .text
  | markedProse hp =>
    rw [reread] at hx
    obtain ⟨p', c', rfl, h1, h2⟩ := tidy_content hx
    rw [reread] at h2
    rw [tidy_text h2]
    exact .content (marks_same hp h1) .text

mutual
theorem item_same : ∀ {e x : Node}, WritableTree.Item e → tidy x = reread e → hasNull e = false → TreeEq.Same e x
  | _, _, .leaf h, hx, hn => leaf_same h hx hn
  | _, _, .coll h, hx, hn => coll_same h hx hn

theorem value_same : ∀ {e x : Node}, WritableTree.Value e → tidy x = reread e → hasNull e = false → TreeEq.Same e x
  | _, _, .item h, hx, hn => item_same h hx hn
  | _, _, .marked hp h, hx, hn => by
    rw [reread] at hx
    obtain ⟨p', c', rfl, h1, h2⟩ := tidy_content hx
    exact .content (marks_same hp h1) (coll_same h h2 (by simpa [hasNull] using hn))

theorem coll_same : ∀ {e x : Node}, WritableTree.Coll e → tidy x = reread e → hasNull e = false → TreeEq.Same e x
  | _, _, .sequence h hs, hx, hn => by
    simp only [hasNull, haveNull, Bool.or_eq_false_iff] at hn
    rw [reread, rereads] at hx
    obtain ⟨es', rfl, h1⟩ := tidy_sequence hx
    obtain ⟨x, xs, rfl, h2, h3⟩ := tidies_cons h1
    exact .sequence (.cons (item_same h h2 hn.1) (rest_same hs h3 hn.2))
  | _, _, .mapping h hs, hx, hn => by
    simp only [hasNull, haveNull, Bool.or_eq_false_iff] at hn
    rw [reread, rereads] at hx
    obtain ⟨es', rfl, h1⟩ := tidy_mapping hx
    obtain ⟨x, xs, rfl, h2, h3⟩ := tidies_cons h1
    exact .mapping (.cons (entry_same h h2 hn.1) (entries_same hs h3 hn.2))

theorem rest_same : ∀ {es xs : List Node}, WritableTree.Items es → tidies xs = rereads es → haveNull es = false → TreeEq.SameList es xs
  | _, xs, .nil, hx, _ => by
    cases xs
    · exact .nil
    · simp [tidies, rereads] at hx
  | _, _, .cons h hs, hx, hn => by
    simp only [haveNull, Bool.or_eq_false_iff] at hn
    rw [rereads] at hx
    obtain ⟨x, xs, rfl, h2, h3⟩ := tidies_cons hx
    exact .cons (item_same h h2 hn.1) (rest_same hs h3 hn.2)

theorem entry_same : ∀ {e x : Node}, WritableTree.Entry e → tidy x = reread e → hasNull e = false → TreeEq.Same e x
  | _, _, .entry hk hv, hx, hn => by
    simp only [hasNull, Bool.or_eq_false_iff] at hn
    rw [reread] at hx
    obtain ⟨k', v', rfl, h1, h2⟩ := tidy_entry hx
    exact .mappingEntry (key_same hk h1 hn.1) (value_same hv h2 hn.2)

theorem entries_same : ∀ {es xs : List Node}, WritableTree.Entries es → tidies xs = rereads es → haveNull es = false → TreeEq.SameList es xs
  | _, xs, .nil, hx, _ => by
    cases xs
    · exact .nil
    · simp [tidies, rereads] at hx
  | _, _, .cons h hs, hx, hn => by
    simp only [haveNull, Bool.or_eq_false_iff] at hn
    rw [rereads] at hx
    obtain ⟨x, xs, rfl, h2, h3⟩ := tidies_cons hx
    exact .cons (entry_same h h2 hn.1) (entries_same hs h3 hn.2)
end

end Verif.Parser
