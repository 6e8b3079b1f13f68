import Verif.Spec.PlainTree

/-!
Texts of YAML streams in block style, and the trees they stand for: block sequences and mappings with scalars, collections in
brackets, aliases, anchors, tags, comments, blank lines and documents.
Nothing here refers to the lexer or the parser.

A text is a list of characters, a column is the number of spaces before the first character of a line.  The flag `z` is true
where the text may end without a line feed.
-/

namespace Verif.BlockText

open Verif.Ast Verif.PlainTree

/-- Spaces. -/
def sp (n : Nat) : List Char := List.replicate n ' '

/-- The text of a comment after its `#`. -/
def Remark (c : List Char) : Prop := ∀ x ∈ c, x ∉ ['\n', '\r', '﻿']

/-- Nothing, or a comment. -/
inductive Tail : List Char → Prop
  | none : Tail []
  | remark {c : List Char} : Remark c → Tail ('#' :: c)

/-- A line break in front of `r`. -/
inductive Break : List Char → List Char → Prop
  | lf {r : List Char} : Break ['\n'] r
  | crlf {r : List Char} : Break ['\r', '\n'] r
  | cr {r : List Char} : r.head? ≠ some '\n' → Break ['\r'] r

/-- Lines without content. -/
inductive Gap : Bool → List Char → Prop
  | nil {z : Bool} : Gap z []
  | brk {z : Bool} {i : Nat} {u b g : List Char} : Tail u → Break b g → Gap z g → Gap z (sp i ++ (u ++ (b ++ g)))
  | last {i : Nat} {u : List Char} : Tail u → Gap true (sp i ++ u)

/-- The end of a line with content, with the lines without content which follow.  A comment needs a space before it. -/
inductive Eol : Bool → List Char → Prop
  | brk {z : Bool} {i : Nat} {u b g : List Char} : Tail u → 0 < i ∨ u = [] → Break b g → Gap z g → Eol z (sp i ++ (u ++ (b ++ g)))
  | last {i : Nat} {u : List Char} : Tail u → 0 < i ∨ u = [] → Eol true (sp i ++ u)

theorem Gap.line {z : Bool} {i : Nat} {u g : List Char} (h : Tail u) (hg : Gap z g) : Gap z (sp i ++ (u ++ '\n' :: g)) :=
  .brk (b := ['\n']) h .lf hg

theorem Eol.line {z : Bool} {i : Nat} {u g : List Char} (h : Tail u) (hi : 0 < i ∨ u = []) (hg : Gap z g) :
    Eol z (sp i ++ (u ++ '\n' :: g)) := .brk (b := ['\n']) h hi .lf hg

/-- Characters of names. -/
def nameChar (c : Char) : Bool := c.isAlphanum || c = '-' || c = '_'

/-- A name of an anchor or a tag. -/
structure Name (w : List Char) : Prop where
  chars : ∀ c ∈ w, nameChar c = true
  first : ∃ c r, w = c :: r ∧ c ≠ '-'

/-- A scalar which fits on a line. -/
inductive Scalar : List Char → Node → Prop
  | phrase {t : List Char} : Phrase t → Scalar t (.text t .unknown)
  | single {t : List Char} : Within .single t → Scalar ('\'' :: (t ++ ['\''])) (.text t .single)
  | double {t : List Char} : Within .double t → Scalar ('"' :: (t ++ ['"'])) (.text t .double)

/-- A scalar or an alias. -/
inductive Atom : List Char → Node → Prop
  | scalar {u : List Char} {e : Node} : Scalar u e → Atom u e
  | ref {a : List Char} : Name a → Atom ('*' :: a) (.alias a)

/-- What collections in brackets consist of: collections, nodes between brackets, the entries of sequences, the entry of a mapping
without a `?` and with it, and all of them. -/
inductive Part
  | coll
  | node
  | items
  | pair
  | asked
  | pairs

/-- Lines of spaces. -/
inductive Blanks : List Char → Prop
  | nil : Blanks []
  | brk {j : Nat} {b g : List Char} : Break b g → Blanks g → Blanks (sp j ++ (b ++ g))

/-- Space between brackets: on one line or, if there is a least column, up to that column or a later one of another line. -/
inductive Room : Option Nat → List Char → Prop
  | here {o : Option Nat} {j : Nat} : Room o (sp j)
  | brk {m i j : Nat} {b g : List Char} : Break b (g ++ sp j) → Blanks g → m ≤ j → Room (some m) (sp i ++ (b ++ (g ++ sp j)))

theorem Blanks.line {j : Nat} {g : List Char} (h : Blanks g) : Blanks (sp j ++ '\n' :: g) := .brk (b := ['\n']) .lf h

theorem Room.lines {m i j : Nat} {g : List Char} (h : Blanks g) (hm : m ≤ j) : Room (some m) (sp i ++ '\n' :: (g ++ sp j)) :=
  .brk (b := ['\n']) .lf h hm

/-- Collections in brackets, in which at most `n` sequences lie within each other; on one line or, if there is a least column, on
lines which start at that column or later.  A key in quotes may be followed by its value without a space, if that is a scalar.  The
value of an entry may be absent, with its colon or without it; there may be a `?` in front of an entry, and a comma after the last
one. -/
inductive Flow (o : Option Nat) : Part → Nat → List Char → Node → Prop
  | atom {n : Nat} {u : List Char} {e : Node} : Atom u e → u.head? ≠ some ':' → Flow o .node n u e
  | coll {n : Nat} {u : List Char} {e : Node} : Flow o .coll n u e → Flow o .node n u e
  | noItems {n : Nat} {w : List Char} : Room o w → Flow o .coll (n + 1) ('[' :: (w ++ [']'])) (.sequence [])
  | seq {n : Nat} {w u : List Char} {es : List Node} : Room o w → Flow o .items n u (.sequence es) →
      Flow o .coll (n + 1) ('[' :: (w ++ (u ++ [']']))) (.sequence es)
  | noPairs {n : Nat} {w : List Char} : Room o w → Flow o .coll n ('{' :: (w ++ ['}'])) (.mapping [])
  | map {n : Nat} {w u : List Char} {es : List Node} : Room o w → Flow o .pairs n u (.mapping es) →
      Flow o .coll n ('{' :: (w ++ (u ++ ['}']))) (.mapping es)
  | item {n : Nat} {u w : List Char} {e : Node} : Flow o .node n u e → Room o w → Flow o .items n (u ++ w) (.sequence [e])
  | itemComma {n : Nat} {u w w' : List Char} {e : Node} : Flow o .node n u e → Room o w → Room o w' →
      Flow o .items n (u ++ (w ++ ',' :: w')) (.sequence [e])
  | items {n : Nat} {u w w' v : List Char} {e : Node} {es : List Node} : Flow o .node n u e → Room o w → Room o w' →
      Flow o .items n v (.sequence es) → Flow o .items n (u ++ (w ++ ',' :: (w' ++ v))) (.sequence (e :: es))
  | pair {n : Nat} {u w w' v : List Char} {x e : Node} : Atom u x → u.head? ≠ some ':' → Room o w → Room o w' → w' ≠ [] →
      Flow o .node n v e → Flow o .pair n (u ++ (w ++ ':' :: (w' ++ v))) (.mappingEntry x e)
  | tight {n : Nat} {u v t : List Char} {k : Quoting} {e : Node} : Scalar u (.text t k) → k ≠ .unknown → Scalar v e →
      v.head? ≠ some ':' → Flow o .pair n (u ++ ':' :: v) (.mappingEntry (.text t k) e)
  | alone {n : Nat} {u : List Char} {x : Node} : Atom u x → u.head? ≠ some ':' → Flow o .pair n u (.mappingEntry x .null)
  | void {n : Nat} {u w : List Char} {x : Node} : Atom u x → u.head? ≠ some ':' → Room o w →
      Flow o .pair n (u ++ (w ++ [':'])) (.mappingEntry x .null)
  | plain {n : Nat} {u : List Char} {e : Node} : Flow o .pair n u e → Flow o .asked n u e
  | asked {n j : Nat} {u : List Char} {e : Node} : Flow o .pair n u e → Flow o .asked n ('?' :: (sp (j + 1) ++ u)) e
  | lastPair {n : Nat} {u w : List Char} {e : Node} : Flow o .asked n u e → Room o w → Flow o .pairs n (u ++ w) (.mapping [e])
  | pairComma {n : Nat} {u w w' : List Char} {e : Node} : Flow o .asked n u e → Room o w → Room o w' →
      Flow o .pairs n (u ++ (w ++ ',' :: w')) (.mapping [e])
  | pairs {n : Nat} {u w w' v : List Char} {e : Node} {es : List Node} : Flow o .asked n u e → Room o w → Room o w' →
      Flow o .pairs n v (.mapping es) → Flow o .pairs n (u ++ (w ++ ',' :: (w' ++ v))) (.mapping (e :: es))

/-- So many lines of spaces, each with a line feed at its end. -/
inductive Hollow : Nat → List Char → Prop
  | nil : Hollow 0 []
  | cons {c j : Nat} {g : List Char} : Hollow c g → Hollow (c + 1) (sp j ++ '\n' :: g)

/-- What stands in a text for a line break with so many blank lines after it. -/
def fold : Nat → List Char
  | 0 => [' ']
  | c + 1 => List.replicate (c + 1) '\n'

/-- The lines of a plain scalar after its first one, at column `m` or a later one, and what they add to its text. -/
inductive Wraps (m : Nat) : List Char → List Char → Prop
  | stop : Wraps m [] []
  | more {i j c : Nat} {b g t u v : List Char} : Break b (g ++ (sp j ++ (t ++ u))) → Hollow c g → m ≤ j → Sentence t → Wraps m u v →
      Wraps m (sp i ++ (b ++ (g ++ (sp j ++ (t ++ u))))) (fold c ++ t ++ v)

/-- A line like the ones before and after documents. -/
def Marks (t : List Char) : Prop := ∃ c r, c ∈ ['-', '.'] ∧ t = c :: c :: c :: r ∧ (r = [] ∨ r.head? = some ' ')

/-- The lines of a text in quotes after its first one, at column `m` or a later one, and what they add to it.  There is no space at
the ends of the lines before the last one. -/
inductive Folds (k : Quoting) (m : Nat) : List Char → List Char → Prop
  | last {j c : Nat} {b g t : List Char} : Break b (g ++ (sp j ++ t)) → Hollow c g → m ≤ j → Within k t → t.head? ≠ some ' ' →
      (j = 0 → ¬ Marks t) → Folds k m (b ++ (g ++ (sp j ++ t))) (fold c ++ t)
  | more {j c : Nat} {b g t u v : List Char} : Break b (g ++ (sp j ++ (t ++ u))) → Hollow c g → m ≤ j → Within k t → t ≠ [] →
      t.head? ≠ some ' ' → t.getLast? ≠ some ' ' → (j = 0 → ¬ Marks t) → Folds k m u v →
      Folds k m (b ++ (g ++ (sp j ++ (t ++ u)))) (fold c ++ t ++ v)

/-- A scalar, which may have commas and brackets between its characters, or a collection in brackets: at most four sequences
within each other, and no line after the first one starts before column `m`.  Lines of a scalar are joined by a space or, if
there are blank lines between them, by that many line feeds. -/
inductive Body (m : Nat) : List Char → Node → Prop
  | scalar {u : List Char} {e : Node} : Scalar u e → Body m u e
  | coll {u : List Char} {e : Node} : Flow (some m) .coll 4 u e → Body m u e
  | sentence {t : List Char} : Sentence t → Body m t (.text t .unknown)
  | lines {t u v : List Char} : Sentence t → Wraps m u v → Body m (t ++ u) (.text (t ++ v) .unknown)
  | singleLines {t u v : List Char} : Within .single t → t.getLast? ≠ some ' ' → Folds .single m u v →
      Body m ('\'' :: (t ++ (u ++ ['\'']))) (.text (t ++ v) .single)
  | doubleLines {t u v : List Char} : Within .double t → t.getLast? ≠ some ' ' → Folds .double m u v →
      Body m ('"' :: (t ++ (u ++ ['"']))) (.text (t ++ v) .double)

/-- The same, or an alias. -/
inductive Core (m : Nat) : List Char → Node → Prop
  | body {u : List Char} {e : Node} : Body m u e → Core m u e
  | ref {a : List Char} : Name a → Core m ('*' :: a) (.alias a)

theorem Atom.core {m : Nat} {u : List Char} {e : Node} (h : Atom u e) : Core m u e := by
  cases h with
  | scalar h => exact .body (.scalar h)
  | ref h => exact .ref h

/-- A tag; its name has no dashes. -/
inductive Tag : List Char → List Char → Prop
  | one {t : List Char} : Name t → '-' ∉ t → Tag ('!' :: t) t
  | two {t : List Char} : Name t → '-' ∉ t → Tag ('!' :: '!' :: t) t

/-- Properties of a node: an anchor, a tag, or both. -/
inductive Props : List Char → Node → Prop
  | anchor {a : List Char} : Name a → Props ('&' :: a) (.properties .nil (.anchor a))
  | tag {u t : List Char} : Tag u t → Props u (.properties (.tag t) .nil)
  | anchorTag {a u t : List Char} {j : Nat} : Name a → Tag u t →
      Props ('&' :: (a ++ (sp (j + 1) ++ u))) (.properties (.tag t) (.anchor a))
  | tagAnchor {a u t : List Char} {j : Nat} : Tag u t → Name a →
      Props (u ++ (sp (j + 1) ++ '&' :: a)) (.properties (.tag t) (.anchor a))

/-- Space before something at column `n` or more: on the same line, or on a later one. -/
inductive Sep (n : Nat) : List Char → Prop
  | mid {i : Nat} : Sep n (sp (i + 1))
  | lines {u : List Char} {m : Nat} : Eol false u → n ≤ m → Sep n (u ++ sp m)

/-! Literal and folded scalars. -/

/-- A line of a literal scalar after its indentation: not empty, no quotes in front of the first blank, no opening bracket at the
start. -/
structure LitLine (t : List Char) : Prop where
  some : t ≠ []
  chars : ∀ c ∈ t, c ∉ ['\n', '\r', '\uFEFF']
  first : ∀ c ∈ t.takeWhile (fun c => c ∉ [' ', '\t']), c ∉ ['\'', '"']
  head : ∀ c, t.head? = .some c → c ∉ ['[', '{']

/-- Blank lines, of at most `m` spaces. -/
inductive Voids (m : Nat) : Nat → List Char → Prop
  | nil : Voids m 0 []
  | cons {i j : Nat} {g : List Char} : j ≤ m → Voids m i g → Voids m (i + 1) (sp j ++ '\n' :: g)

/-- The lines of a literal scalar after its first one, and what they add to its text. -/
inductive Lines (m : Nat) : List Char → List Char → Prop
  | stop : Lines m [] []
  | more {i : Nat} {g t u v : List Char} : Voids m i g → LitLine t → Lines m u v →
      Lines m ('\n' :: (g ++ (sp m ++ (t ++ u)))) ('\n' :: (List.replicate i '\n' ++ (t ++ v)))

/-- Comments after a literal scalar: the first one is less indented than its text. -/
inductive Notes (m : Nat) : Bool → List Char → Prop
  | line {z : Bool} {j : Nat} {c g : List Char} : j < m → Remark c → Gap z g → Notes m z (sp j ++ '#' :: (c ++ '\n' :: g))
  | last {j : Nat} {c : List Char} : j < m → Remark c → Notes m true (sp j ++ '#' :: c)

/-- The end of the last line of a literal scalar, with the number of the blank lines which follow, if it has a line feed. -/
inductive Ending (m : Nat) : Bool → Option Nat → List Char → Prop
  | line {z : Bool} {i : Nat} {g : List Char} : Voids m i g → Ending m z (.some i) ('\n' :: g)
  | notes {z : Bool} {i : Nat} {g g' : List Char} : Voids m i g → Notes m z g' → Ending m z (.some i) ('\n' :: (g ++ g'))
  | eof : Ending m true .none []

/-- What becomes of the line feeds at the end. -/
inductive Chomp
  | clip
  | strip
  | keep

/-- The sign in the header. -/
def Chomp.sign : Chomp → List Char
  | .clip => []
  | .strip => ['-']
  | .keep => ['+']

/-- The line feeds which belong to the text, if the last line ends with one and `i` blank lines follow. -/
def Chomp.kept : Chomp → Option Nat → List Char
  | .clip, .some _ => ['\n']
  | .keep, .some i => '\n' :: List.replicate i '\n'
  | _, _ => []

/-- The last line has a character which is not a space. -/
def Solid (t : List Char) : Prop := ∃ c ∈ t.reverse.takeWhile (· ≠ '\n'), c ≠ ' '

/-- A line of a folded scalar after its indentation: a plain word, possibly with a colon after it, and then nothing or a space and
any text. -/
inductive FoldLine : List Char → Prop
  | word {w v : List Char} : LooseWord w → (∀ c, v.head? = .some c → c = ' ') → (∀ c ∈ v, c ∉ ['\n', '\r', '\uFEFF']) → FoldLine (w ++ v)
  | colon {w v : List Char} : LooseWord w → (∀ c, v.head? = .some c → c = ' ') → (∀ c ∈ v, c ∉ ['\n', '\r', '\uFEFF']) →
      FoldLine (w ++ ':' :: v)

/-- The further lines of a folded scalar: a line break stands for a space, several ones for one less. -/
inductive FoldLines (m : Nat) : List Char → List Char → Prop
  | stop : FoldLines m [] []
  | more {i : Nat} {g t u v : List Char} : Voids m i g → FoldLine t → FoldLines m u v →
      FoldLines m ('\n' :: (g ++ (sp m ++ (t ++ u)))) (fold i ++ (t ++ v))

/-- The signs behind `|` or `>`: how the end of the text is treated, and possibly the indentation `d`, in either order. -/
inductive Signs (d : Nat) (ch : Chomp) : List Char → Prop
  | none : Signs d ch ch.sign
  | before : 1 ≤ d → d ≤ 9 → Signs d ch (d.digitChar :: ch.sign)
  | behind : 1 ≤ d → d ≤ 9 → Signs d ch (ch.sign ++ [d.digitChar])

/-- A literal or folded scalar with its text, indented by `m`; the first line does not start with white space.  If the
indentation is written behind the bar, then it is counted from the column of the collection around, which is `n - 1`. -/
inductive Literal (n m : Nat) (z : Bool) : List Char → List Char → Prop
  | mk {ch : Chomp} {i : Nat} {s a t u v w : List Char} {o : Option Nat} : Signs (m + 1 - n) ch s → Tail a → 0 < i ∨ a = [] → LitLine t →
      (∀ c, t.head? = .some c → c ∉ [' ', '\t']) → Lines m u v → Ending m z o w → (o = .none → Solid (t ++ v)) →
      Literal n m z ('|' :: (s ++ (sp i ++ (a ++ '\n' :: (sp m ++ (t ++ (u ++ w))))))) (t ++ v ++ ch.kept o)
  | folded {ch : Chomp} {i : Nat} {s a t u v w : List Char} {o : Option Nat} : Signs (m + 1 - n) ch s → Tail a → 0 < i ∨ a = [] → FoldLine t → FoldLines m u v →
      Ending m z o w →
      Literal n m z ('>' :: (s ++ (sp i ++ (a ++ '\n' :: (sp m ++ (t ++ (u ++ w))))))) (t ++ v ++ ch.kept o)

/-- A scalar or a collection in brackets, with its properties, or an alias; up to the next line with content.  The text of a
literal scalar is indented by `m`. -/
inductive Leaf (n : Nat) (z : Bool) : List Char → Node → Prop
  | atom {u v w : List Char} {e : Node} : Sep n u → Core n v e → Eol z w → Leaf n z (u ++ (v ++ w)) e
  | props {u v u' v' w : List Char} {x e : Node} : Sep n u → Props v x → Sep n u' → Body n v' e → Eol z w →
      Leaf n z (u ++ (v ++ (u' ++ (v' ++ w)))) (.content x e)
  | lit {m : Nat} {u v t : List Char} : Sep n u → n ≤ m → 1 ≤ m → Literal n m z v t → Leaf n z (u ++ v) (.text t .unknown)
  | propsLit {m : Nat} {u v u' w t : List Char} {x : Node} : Sep n u → Props v x → Sep n u' → n ≤ m → 1 ≤ m → Literal n m z w t →
      Leaf n z (u ++ (v ++ (u' ++ w))) (.content x (.text t .unknown))

/-- Properties of nothing. -/
inductive Bare (n : Nat) (z : Bool) : List Char → Node → Prop
  | mk {u v w : List Char} {x : Node} : Sep n u → Props v x → Eol z w → Bare n z (u ++ (v ++ w)) (.content x .null)

mutual
/-- A block collection at column `n`, from its first character on. -/
inductive Block : Nat → Bool → List Char → Node → Prop
  | seq {n : Nat} {z : Bool} {u : List Char} {es : List Node} : Items n z u es → Block n z u (.sequence es)
  | map {n : Nat} {z : Bool} {u : List Char} {es : List Node} : Pairs n z u es → Block n z u (.mapping es)
/-- The items of a sequence. -/
inductive Items : Nat → Bool → List Char → List Node → Prop
  | last {n : Nat} {z : Bool} {u : List Char} {e : Node} : Item n z u e → Items n z ('-' :: u) [e]
  | cons {n : Nat} {z : Bool} {u v : List Char} {e : Node} {es : List Node} : Item n false u e → Items n z v es →
      Items n z ('-' :: (u ++ (sp n ++ v))) (e :: es)
/-- An item after its dash: a scalar or an alias, properties of nothing, nothing, a collection on the same line, or a
collection on later lines, with or without properties. -/
inductive Item : Nat → Bool → List Char → Node → Prop
  | leaf {n : Nat} {z : Bool} {u : List Char} {e : Node} : Leaf (n + 1) z u e → Item n z u e
  | bare {n : Nat} {z : Bool} {u : List Char} {e : Node} : Bare (n + 1) z u e → Item n z u e
  | null {n : Nat} {z : Bool} {u : List Char} : Eol z u → u ≠ [] → Item n z u .null
  | compact {n : Nat} {z : Bool} {j : Nat} {u : List Char} {e : Node} : Block (n + 1 + (j + 1)) z u e → Item n z (sp (j + 1) ++ u) e
  | under {n : Nat} {z : Bool} {m : Nat} {w u : List Char} {e : Node} : Eol false w → n + 1 ≤ m → Block m z u e →
      Item n z (w ++ (sp m ++ u)) e
  | underProps {n : Nat} {z : Bool} {m : Nat} {u' v w u : List Char} {x e : Node} : Sep (n + 1) u' → Props v x → Eol false w →
      n + 1 ≤ m → Block m z u e → Item n z (u' ++ (v ++ (w ++ (sp m ++ u)))) (.content x e)
/-- The entries of a mapping.  An entry with a `?` has its value, if there is one, on a line of its own. -/
inductive Pairs : Nat → Bool → List Char → List Node → Prop
  | last {n : Nat} {z : Bool} {i : Nat} {k u : List Char} {x e : Node} : Atom k x → Value n z u e →
      Pairs n z (k ++ (sp i ++ ':' :: u)) [.mappingEntry x e]
  | cons {n : Nat} {z : Bool} {i : Nat} {k u v : List Char} {x e : Node} {es : List Node} : Atom k x → Value n false u e →
      Pairs n z v es → Pairs n z (k ++ (sp i ++ ':' :: (u ++ (sp n ++ v)))) (.mappingEntry x e :: es)
  | keyLast {n : Nat} {z : Bool} {k : List Char} {x : Node} : Field n z k x → Pairs n z ('?' :: k) [.mappingEntry x .null]
  | keyCons {n : Nat} {z : Bool} {k v : List Char} {x : Node} {es : List Node} : Field n false k x → Pairs n z v es →
      Pairs n z ('?' :: (k ++ (sp n ++ v))) (.mappingEntry x .null :: es)
  | entryLast {n : Nat} {z : Bool} {k u : List Char} {x e : Node} : Field n false k x → Field n z u e →
      Pairs n z ('?' :: (k ++ (sp n ++ ':' :: u))) [.mappingEntry x e]
  | entryCons {n : Nat} {z : Bool} {k u v : List Char} {x e : Node} {es : List Node} : Field n false k x → Field n false u e →
      Pairs n z v es → Pairs n z ('?' :: (k ++ (sp n ++ ':' :: (u ++ (sp n ++ v))))) (.mappingEntry x e :: es)
/-- A value after its colon; unlike an item it does not start a collection on the same line, but a sequence may have the column
of the mapping. -/
inductive Value : Nat → Bool → List Char → Node → Prop
  | leaf {n : Nat} {z : Bool} {u : List Char} {e : Node} : Leaf (n + 1) z u e → Value n z u e
  | bare {n : Nat} {z : Bool} {u : List Char} {e : Node} : Bare (n + 1) z u e → Value n z u e
  | null {n : Nat} {z : Bool} {u : List Char} : Eol z u → Value n z u .null
  | under {n : Nat} {z : Bool} {m : Nat} {w u : List Char} {e : Node} : Eol false w → n + 1 ≤ m → Block m z u e →
      Value n z (w ++ (sp m ++ u)) e
  | flush {n : Nat} {z : Bool} {w u : List Char} {es : List Node} : Eol false w → Items n z u es →
      Value n z (w ++ (sp n ++ u)) (.sequence es)
  | underProps {n : Nat} {z : Bool} {m : Nat} {u' v w u : List Char} {x e : Node} : Sep (n + 1) u' → Props v x → Eol false w →
      n + 1 ≤ m → Block m z u e → Value n z (u' ++ (v ++ (w ++ (sp m ++ u)))) (.content x e)
  | flushProps {n : Nat} {z : Bool} {u' v w u : List Char} {x : Node} {es : List Node} : Sep (n + 1) u' → Props v x →
      Eol false w → Items n z u es → Value n z (u' ++ (v ++ (w ++ (sp n ++ u)))) (.content x (.sequence es))
/-- The key or the value of an entry with a `?`, after its sign: unlike other values it may start a collection on the same line. -/
inductive Field : Nat → Bool → List Char → Node → Prop
  | value {n : Nat} {z : Bool} {u : List Char} {e : Node} : Value n z u e → Field n z u e
  | compact {n : Nat} {z : Bool} {j : Nat} {u : List Char} {e : Node} : Block (n + 1 + (j + 1)) z u e → Field n z (sp (j + 1) ++ u) e
end

/-- A document after `---`. -/
inductive Explicit (z : Bool) : List Char → Node → Prop
  | leaf {u : List Char} {e : Node} : Leaf 0 z u e → Explicit z u e
  | null {u : List Char} : Eol z u → Explicit z u .null
  | under {m : Nat} {w u : List Char} {e : Node} : Eol false w → Block m z u e → Explicit z (w ++ (sp m ++ u)) e
  | underProps {m : Nat} {u' v w u : List Char} {x e : Node} : Sep 0 u' → Props v x → Eol false w → Block m z u e →
      Explicit z (u' ++ (v ++ (w ++ (sp m ++ u)))) (.content x e)

/-- A document which starts with its content. -/
inductive Implicit (z : Bool) : List Char → Node → Prop
  | block {m : Nat} {u : List Char} {e : Node} : Block m z u e → Implicit z (sp m ++ u) e
  | atom {m : Nat} {v w : List Char} {e : Node} : Core 0 v e → Eol z w → Implicit z (sp m ++ (v ++ w)) e
  | props {m : Nat} {v u' v' w : List Char} {x e : Node} : Props v x → Sep 0 u' → Body 0 v' e → Eol z w →
      Implicit z (sp m ++ (v ++ (u' ++ (v' ++ w)))) (.content x e)
  | lit {m m' : Nat} {v t : List Char} : 1 ≤ m' → Literal 0 m' z v t → Implicit z (sp m ++ v) (.text t .unknown)
  | propsLit {m m' : Nat} {v u' w t : List Char} {x : Node} : Props v x → Sep 0 u' → 1 ≤ m' → Literal 0 m' z w t →
      Implicit z (sp m ++ (v ++ (u' ++ w))) (.content x (.text t .unknown))
  | underProps {m m' : Nat} {v w u : List Char} {x e : Node} : Props v x → Eol false w → Block m' z u e →
      Implicit z (sp m ++ (v ++ (w ++ (sp m' ++ u)))) (.content x e)

/-- A word of a directive. -/
structure Ink (w : List Char) : Prop where
  some : w ≠ []
  chars : ∀ c ∈ w, c ∉ [' ', '\t', '\n', '\r', '\uFEFF']

/-- Words with spaces before them. -/
inductive Params : List Char → Prop
  | nil : Params []
  | cons {i : Nat} {w u : List Char} : 0 < i → Ink w → Params u → Params (sp i ++ (w ++ u))

/-- Decimal digits. -/
def Numeral (w : List Char) : Prop := w ≠ [] ∧ ∀ c ∈ w, c.isDigit = true

/-- The handle of tags. -/
inductive TagHandle : List Char → Prop
  | one : TagHandle ['!']
  | two : TagHandle ['!', '!']
  | named {w : List Char} : w ≠ [] → (∀ c ∈ w, c.isAlphanum = true ∨ c = '-') → TagHandle ('!' :: (w ++ ['!']))

/-- The prefix a handle stands for, which is not a local one. -/
structure TagPrefix (w : List Char) : Prop where
  chars : ∀ c ∈ w, c.isAlphanum = true ∨ c ∈ "-#;/?:@&=+$,_.!~*'[]".toList
  first : ∃ c r, w = c :: r ∧ c ∉ ['-', ',', '!', '[', ']']

/-- A line with a directive, and the lines without content after it.  Behind the words of an unknown directive there is nothing. -/
inductive Directive : List Char → Prop
  | yaml {i : Nat} {a b w : List Char} : 0 < i → Numeral a → Numeral b → Eol false w →
      Directive ('%' :: 'Y' :: 'A' :: 'M' :: 'L' :: (sp i ++ (a ++ '.' :: (b ++ w))))
  | tag {i j : Nat} {h t w : List Char} : 0 < i → TagHandle h → 0 < j → TagPrefix t → Eol false w →
      Directive ('%' :: 'T' :: 'A' :: 'G' :: (sp i ++ (h ++ (sp j ++ (t ++ w)))))
  | other {n u b g : List Char} : Ink n → n ≠ "YAML".toList → n ≠ "TAG".toList → Params u → Break b g → Gap false g →
      Directive ('%' :: (n ++ (u ++ (b ++ g))))

/-- Directives. -/
inductive Directives : List Char → Prop
  | one {u : List Char} : Directive u → Directives u
  | more {u v : List Char} : Directive u → Directives v → Directives (u ++ v)

mutual
/-- What may follow a document: another one after `---`, or `...`. -/
inductive Docs : List Char → List Node → Prop
  | done : Docs [] []
  | explicit {z : Bool} {u v : List Char} {e : Node} {es : List Node} : Explicit z u e → (z = true → v = []) → Docs v es →
      Docs ('-' :: '-' :: '-' :: (u ++ v)) (e :: es)
  | suffix {z : Bool} {u v : List Char} {es : List Node} : Eol z u → (z = true → v = []) → Next v es →
      Docs ('.' :: '.' :: '.' :: (u ++ v)) es
/-- What may follow `...`. -/
inductive Next : List Char → List Node → Prop
  | first {u : List Char} {es : List Node} : First u es → Next u es
  | suffix {z : Bool} {u v : List Char} {es : List Node} : Eol z u → (z = true → v = []) → Next v es →
      Next ('.' :: '.' :: '.' :: (u ++ v)) es
/-- A document may start without `---`, or with directives before it. -/
inductive First : List Char → List Node → Prop
  | done : First [] []
  | explicit {z : Bool} {u v : List Char} {e : Node} {es : List Node} : Explicit z u e → (z = true → v = []) → Docs v es →
      First ('-' :: '-' :: '-' :: (u ++ v)) (e :: es)
  | implicit {z : Bool} {u v : List Char} {e : Node} {es : List Node} : Implicit z u e → (z = true → v = []) → Docs v es →
      First (u ++ v) (e :: es)
  | directives {z : Bool} {d u v : List Char} {e : Node} {es : List Node} : Directives d → Explicit z u e → (z = true → v = []) →
      Docs v es → First (d ++ '-' :: '-' :: '-' :: (u ++ v)) (e :: es)
end

/-- A stream, and the trees of its documents. -/
inductive Stream : List Char → List Node → Prop
  | mk {z : Bool} {g u : List Char} {es : List Node} : Gap z g → (z = true → u = []) → First u es → Stream (g ++ u) es

/-! An absent anchor or tag is the nil interface or the invalid node. -/

/-- The nil interface for an absent property. -/
def absence : Node → Node
  | .basic .invalid => .nil
  | n => n

mutual
/-- The tree with nil interfaces for absent properties. -/
def tidy : Node → Node
  | .properties t a => .properties (absence t) (absence a)
  | .content p c => .content (tidy p) (tidy c)
  | .sequence es => .sequence (tidies es)
  | .mapping es => .mapping (tidies es)
  | .mappingEntry k v => .mappingEntry (tidy k) (tidy v)
  | n => n

/-- The same, for lists of trees. -/
def tidies : List Node → List Node
  | [] => []
  | n :: ns => tidy n :: tidies ns
end

end Verif.BlockText
