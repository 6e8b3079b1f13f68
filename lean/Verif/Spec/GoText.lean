/-!
What Go asks of a text, as far as brackets, string literals and the expressions for variables go: the Go specification,
"Operators", "Primary expressions", "String literals".
-/

namespace Verif.GoText

/-- The closing bracket of an opening one. -/
def closing : Char → Option Char
  | '(' => some ')'
  | '[' => some ']'
  | '{' => some '}'
  | _ => none

/-- A character which is neither bracket nor quote. -/
def Plain (c : Char) : Prop := c ∉ ['(', ')', '[', ']', '{', '}', '"', '`']

instance (c : Char) : Decidable (Plain c) := inferInstanceAs (Decidable (_ ∉ _))

/-- The characters between the quotes of a literal: no quote, no line break, and a backslash takes the next character. -/
inductive Inside : List Char → Prop
  | nil : Inside []
  | char {c s} : c ≠ '"' → c ≠ '\\' → c ≠ '\n' → Inside s → Inside (c :: s)
  | escape {c s} : c ≠ '\n' → Inside s → Inside ('\\' :: c :: s)

/-- Every bracket outside of literals is closed by its own closing bracket, and every literal ends. -/
inductive Closed : List Char → Prop
  | nil : Closed []
  | plain {c s} : Plain c → Closed s → Closed (c :: s)
  | bracket {o c s r} : closing o = some c → Closed s → Closed r → Closed (o :: (s ++ c :: r))
  | literal {s r} : Inside s → Closed r → Closed ('"' :: (s ++ '"' :: r))
  | raw {s r} : '`' ∉ s → Closed r → Closed ('`' :: (s ++ '`' :: r))

/-- The text denoted by the characters between quotes (without the escapes by numbers). -/
inductive Denotes : List Char → List Char → Prop
  | nil : Denotes [] []
  | char {c s x} : c ≠ '"' → c ≠ '\\' → c ≠ '\n' → Denotes s x → Denotes (c :: s) (c :: x)
  | tab {s x} : Denotes s x → Denotes ('\\' :: 't' :: s) ('\t' :: x)
  | newline {s x} : Denotes s x → Denotes ('\\' :: 'n' :: s) ('\n' :: x)
  | quote {s x} : Denotes s x → Denotes ('\\' :: '"' :: s) ('"' :: x)
  | backslash {s x} : Denotes s x → Denotes ('\\' :: '\\' :: s) ('\\' :: x)

/-- A name: letters, digits and underscores, not beginning with a digit.  (Go has more letters.) -/
def Ident (x : List Char) : Prop :=
  (∃ c s, x = c :: s ∧ c.isDigit = false) ∧ ∀ c ∈ x, c.isAlphanum = true ∨ c = '_'

/-- Expressions. -/
inductive Expr where
  | name (x : List Char)
  | sel (e : Expr) (f : List Char)
  | index (e : Expr) (i : List Char)
  | call (e : Expr) (args : List Char)
  | deref (e : Expr)
deriving DecidableEq, Repr

mutual
/-- Primary expressions: names, expressions in parentheses, and these followed by selectors, indices and arguments. -/
inductive Primary : List Char → Expr → Prop
  | name {x} : Ident x → Primary x (.name x)
  | paren {x e} : Unary x e → Primary ('(' :: (x ++ [')'])) e
  | sel {x e f} : Primary x e → Ident f → Primary (x ++ '.' :: f) (.sel e f)
  | index {x e i} : Primary x e → Ident i → Primary (x ++ '[' :: (i ++ [']'])) (.index e i)
  | call {x e a} : Primary x e → Closed a → '"' ∉ a → '`' ∉ a → Primary (x ++ '(' :: (a ++ [')'])) (.call e a)

/-- Unary expressions: a star takes all that follows. -/
inductive Unary : List Char → Expr → Prop
  | primary {x e} : Primary x e → Unary x e
  | deref {x e} : Unary x e → Unary ('*' :: x) (.deref e)
end

end Verif.GoText
