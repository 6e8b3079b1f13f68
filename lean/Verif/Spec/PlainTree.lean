import Verif.Model.Ast

/-!
Trees which need no escapes: non-empty block collections of texts made of plain words, texts in quotes and nulls, with such
scalars as keys.
Nothing here refers to the lexer, the parser or the writer.
-/

namespace Verif.PlainTree

open Verif.Ast

/-- Characters which do not occur in a plain word. -/
def forbidden : List Char := [' ', '\t', '\n', '\r', '﻿', ',', '[', ']', '{', '}', '!', '\'', '"', '%']

/-- Characters with a meaning at the start of a word; inside of it they are ordinary. -/
def indicators : List Char := ['#', '&', '*', '|', '>']

/-- Words with a meaning of their own. -/
def markers : List (List Char) := [['-'], ['?'], ['-', '-', '-'], ['.', '.', '.']]

/-- A plain word. -/
structure Word (w : List Char) : Prop where
  chars : ∀ c ∈ w, c ∉ forbidden
  first : ∃ c r, w = c :: r ∧ c ∉ indicators
  last : w.getLast? ≠ some ':'
  mark : w ∉ markers

/-- Words with spaces between them. -/
inductive Phrase : List Char → Prop
  | word {w : List Char} : Word w → Phrase w
  | more {w t : List Char} {j : Nat} : Word w → Phrase t → Phrase (w ++ (List.replicate (j + 1) ' ' ++ t))

/-- Characters which do not occur in a plain word outside of brackets. -/
def breaking : List Char := [' ', '\t', '\n', '\r', '\uFEFF', '!', '\'', '"', '%']

/-- A plain word outside of brackets: it may have commas and brackets in it. -/
structure LooseWord (w : List Char) : Prop where
  chars : ∀ c ∈ w, c ∉ breaking
  first : ∃ c r, w = c :: r ∧ c ∉ indicators ∧ c ∉ ['[', '{']
  last : w.getLast? ≠ some ':'
  mark : w ∉ markers

/-- Such words with spaces between them. -/
inductive Clause : List Char → Prop
  | word {w : List Char} : LooseWord w → Clause w
  | more {w t : List Char} {j : Nat} : LooseWord w → Clause t → Clause (w ++ (List.replicate (j + 1) ' ' ++ t))

/-- The same, with neither a comma nor a bracket in front. -/
structure Sentence (t : List Char) : Prop where
  words : Clause t
  first : ∀ c, t.head? = some c → c ∉ [',', ']', '}']

/-- Quoting is left to the writer. -/
inductive Bare : Quoting → Prop
  | absent : Bare .absent
  | unknown : Bare .unknown

/-- Quoting is required. -/
inductive Quotes : Quoting → Prop
  | single : Quotes .single
  | double : Quotes .double

/-- Code points which are not written as they are between quotes, or not read so. -/
def special : Quoting → List Nat
  | .double => [0x22, 0x5C, 0x85, 0xA0, 0x2028, 0x2029, 0xFEFF]
  | _ => [0x27, 0xFEFF]

/-- A text which is written between quotes as it is. -/
def Verbatim (q : Quoting) (t : List Char) : Prop := ∀ c ∈ t, 0x20 ≤ c.toNat ∧ c.toNat ∉ special q

/-- The characters which are not read as they are between quotes. -/
def signs : Quoting → List Char
  | .double => ['"', '\\', '\uFEFF']
  | _ => ['\'', '\uFEFF']

/-- What may follow a backslash: a letter, or a letter and hexadecimal digits.  (The specification has the letter b as well, and a
tab.) -/
inductive Escape : List Char → Prop
  | letter {c : Char} : c ∈ "0atnvfre \"/\\N_LP".toList → Escape [c]
  | number {l : Char} {ds : List Char} : (l, ds.length) ∈ [('x', 2), ('u', 4), ('U', 8)] →
      (∀ c ∈ ds, c ∈ "0123456789abcdefABCDEF".toList) → Escape (l :: ds)

/-- A text which is read between quotes as it is: the parser keeps escapes and doubled quotes. -/
inductive Within (q : Quoting) : List Char → Prop
  | nil : Within q []
  | char {c : Char} {t : List Char} : 0x20 ≤ c.toNat → c ∉ signs q → Within q t → Within q (c :: t)
  | escape {e t : List Char} : q = .double → Escape e → Within q t → Within q ('\\' :: (e ++ t))
  | twice {t : List Char} : q = .single → Within q t → Within q ('\'' :: '\'' :: t)

theorem Within.of {q : Quoting} : ∀ {t : List Char}, (∀ c ∈ t, 0x20 ≤ c.toNat ∧ c ∉ signs q) → Within q t
  | [], _ => .nil
  | c :: _, h => .char (h c (by simp)).1 (h c (by simp)).2 (.of fun x hx => h x (by simp [hx]))

theorem Verbatim.within {q : Quoting} {t : List Char} (h : Verbatim q t) : Within q t := by
  refine .of fun c hc => ⟨(h c hc).1, fun hs => (h c hc).2 ?_⟩
  cases q <;> simp only [signs, special, List.mem_cons, List.not_mem_nil, or_false] at hs ⊢
  all_goals first
    | (rcases hs with rfl | rfl | rfl <;> decide)
    | (rcases hs with rfl | rfl <;> decide)

/-- A scalar: a bare text, a text in quotes, or null. -/
inductive Scalar : Node → Prop
  | text {t : List Char} {q : Quoting} : Phrase t → Bare q → Scalar (.text t q)
  | quoted {t : List Char} {q : Quoting} : Quotes q → Verbatim q t → Scalar (.text t q)
  | null : Scalar .null

/-- A scalar outside of keys: its words may have commas and brackets in them. -/
inductive Field : Node → Prop
  | scalar {n : Node} : Scalar n → Field n
  | sentence {t : List Char} {q : Quoting} : Sentence t → Bare q → Field (.text t q)

mutual
/-- A tree without escapes. -/
inductive Plain : Node → Prop
  | scalar {n : Node} : Scalar n → Plain n
  | sentence {t : List Char} {q : Quoting} : Sentence t → Bare q → Plain (.text t q)
  | coll {n : Node} : Coll n → Plain n
/-- A collection without escapes. -/
inductive Coll : Node → Prop
  | sequence {e : Node} {es : List Node} : Plain e → Rest es → Coll (.sequence (e :: es))
  | mapping {e : Node} {es : List Node} : Entry e → Entries es → Coll (.mapping (e :: es))
/-- The other items of a sequence. -/
inductive Rest : List Node → Prop
  | nil : Rest []
  | cons {e : Node} {es : List Node} : Plain e → Rest es → Rest (e :: es)
/-- An entry of a mapping. -/
inductive Entry : Node → Prop
  | entry {k v : Node} : Scalar k → Plain v → Entry (.mappingEntry k v)
/-- The other entries of a mapping. -/
inductive Entries : List Node → Prop
  | nil : Entries []
  | cons {e : Node} {es : List Node} : Entry e → Entries es → Entries (e :: es)
end

/-- What a reader who sees the text only can know about the quoting. -/
def seen : Quoting → Quoting
  | .double => .double
  | .single => .single
  | _ => .unknown

mutual
/-- What a reader who sees the text only can know: texts with their quotes, nulls as their spelling. -/
def reread : Node → Node
  | .null => .text ['n', 'u', 'l', 'l'] .unknown
  | .text t q => .text t (seen q)
  | .sequence es => .sequence (rereads es)
  | .mapping es => .mapping (rereads es)
  | .mappingEntry k v => .mappingEntry (reread k) (reread v)
  | n => n

/-- The same, for lists of children. -/
def rereads : List Node → List Node
  | [] => []
  | n :: ns => reread n :: rereads ns
end

mutual
/-- Is there a null in the tree? -/
def hasNull : Node → Bool
  | .null => true
  | .sequence es => haveNull es
  | .mapping es => haveNull es
  | .mappingEntry k v => hasNull k || hasNull v
  | _ => false

/-- The same, for lists of children. -/
def haveNull : List Node → Bool
  | [] => false
  | n :: ns => hasNull n || haveNull ns
end

end Verif.PlainTree
