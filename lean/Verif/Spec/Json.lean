import Verif.Spec.PlainTree

/-!
JSON texts (RFC 8259), the values they stand for, and the trees of these values.
Nothing here refers to the lexer or the parser.
-/

namespace Verif.Json

open Verif.Ast

/-- JSON values.  Numbers are kept as they are written. -/
inductive Json
  | null
  | bool (b : Bool)
  | num (t : List Char)
  | str (t : List Char)
  | arr (es : List Json)
  | obj (es : List (List Char × Json))

mutual
/-- The tree of a value: what is not in quotes has no quotation mark in the tree. -/
def tree : Json → Node
  | .null => .text "null".toList .unknown
  | .bool true => .text "true".toList .unknown
  | .bool false => .text "false".toList .unknown
  | .num t => .text t .unknown
  | .str t => .text t .double
  | .arr es => .sequence (trees es)
  | .obj es => .mapping (entries es)

/-- The trees of the values of an array. -/
def trees : List Json → List Node
  | [] => []
  | e :: es => tree e :: trees es

/-- The entries of an object. -/
def entries : List (List Char × Json) → List Node
  | [] => []
  | (k, e) :: es => .mappingEntry (.text k .double) (tree e) :: entries es
end

mutual
/-- How many arrays lie within each other. -/
def depth : Json → Nat
  | .arr es => depths es + 1
  | .obj es => depthsO es
  | _ => 0

/-- The same, for the values of an array. -/
def depths : List Json → Nat
  | [] => 0
  | e :: es => max (depth e) (depths es)

/-- The same, for the values of an object. -/
def depthsO : List (List Char × Json) → Nat
  | [] => 0
  | (_, e) :: es => max (depth e) (depthsO es)
end

/-- Neither an array nor an object. -/
def isScalar : Json → Bool
  | .arr _ | .obj _ => false
  | _ => true

/-- Digits, at least one. -/
def Digits (t : List Char) : Prop := t ≠ [] ∧ ∀ c ∈ t, c.isDigit = true

/-- A number without a sign: digits, a fraction, an exponent. -/
inductive Unsigned : List Char → Prop
  | int {t : List Char} : Digits t → Unsigned t
  | frac {t u : List Char} : Digits t → Digits u → Unsigned (t ++ '.' :: u)
  | exp {t u : List Char} {e : Char} : Unsigned t → e = 'e' ∨ e = 'E' → Digits u → Unsigned (t ++ e :: u)
  | expSign {t u : List Char} {e s : Char} : Unsigned t → e = 'e' ∨ e = 'E' → s = '+' ∨ s = '-' → Digits u → Unsigned (t ++ e :: s :: u)

/-- A number. -/
inductive Number : List Char → Prop
  | plain {t : List Char} : Unsigned t → Number t
  | minus {t : List Char} : Unsigned t → Number ('-' :: t)

/-- What is left open by the grammar: the white space between tokens, the white space around a colon before a value, and what
stands between the quotes of a string. -/
structure Style where
  ws : List Char → Prop
  colon : List Char → List Char → Json → Prop
  str : List Char → List Char → Prop

/-- What the grammar describes: values, the values of an array, a pair of an object and all of them. -/
inductive Part
  | value
  | items
  | pair
  | pairs

/-- JSON texts. -/
inductive Text (S : Style) : Part → List Char → Json → Prop
  | null : Text S .value "null".toList .null
  | yes : Text S .value "true".toList (.bool true)
  | no : Text S .value "false".toList (.bool false)
  | num {t : List Char} : Number t → Text S .value t (.num t)
  | str {u t : List Char} : S.str u t → Text S .value ('"' :: (u ++ ['"'])) (.str t)
  | noItems {g : List Char} : S.ws g → Text S .value ('[' :: (g ++ [']'])) (.arr [])
  | arr {g u : List Char} {es : List Json} : S.ws g → Text S .items u (.arr es) → Text S .value ('[' :: (g ++ (u ++ [']']))) (.arr es)
  | noPairs {g : List Char} : S.ws g → Text S .value ('{' :: (g ++ ['}'])) (.obj [])
  | obj {g u : List Char} {es : List (List Char × Json)} : S.ws g → Text S .pairs u (.obj es) →
      Text S .value ('{' :: (g ++ (u ++ ['}']))) (.obj es)
  | item {u g : List Char} {e : Json} : Text S .value u e → S.ws g → Text S .items (u ++ g) (.arr [e])
  | items {u v g g' : List Char} {e : Json} {es : List Json} : Text S .value u e → S.ws g → S.ws g' → Text S .items v (.arr es) →
      Text S .items (u ++ (g ++ ',' :: (g' ++ v))) (.arr (e :: es))
  | pair {k t u g g' : List Char} {e : Json} : S.str k t → S.colon g g' e → Text S .value u e →
      Text S .pair ('"' :: (k ++ '"' :: (g ++ ':' :: (g' ++ u)))) (.obj [(t, e)])
  | lastPair {u g : List Char} {p : List Char × Json} : Text S .pair u (.obj [p]) → S.ws g → Text S .pairs (u ++ g) (.obj [p])
  | pairs {u v g g' : List Char} {p : List Char × Json} {es : List (List Char × Json)} : Text S .pair u (.obj [p]) → S.ws g → S.ws g' →
      Text S .pairs v (.obj es) → Text S .pairs (u ++ (g ++ ',' :: (g' ++ v))) (.obj (p :: es))

/-- White space of JSON. -/
def White (g : List Char) : Prop := ∀ c ∈ g, c = ' ' ∨ c = '\t' ∨ c = '\n' ∨ c = '\r'

/-- Strings of JSON without escapes: no quotes, no backslashes, no control characters. -/
def Raw (u t : List Char) : Prop := u = t ∧ ∀ c ∈ u, c ≠ '"' ∧ c ≠ '\\' ∧ 0x20 ≤ c.toNat

/-- The value of a hexadecimal digit. -/
def hexDigit (c : Char) : Option Nat :=
  if '0' ≤ c ∧ c ≤ '9' then some (c.toNat - 0x30)
  else if 'a' ≤ c ∧ c ≤ 'f' then some (c.toNat - 0x57)
  else if 'A' ≤ c ∧ c ≤ 'F' then some (c.toNat - 0x37)
  else none

/-- Four hexadecimal digits and their value. -/
def Hex (u : List Char) (n : Nat) : Prop :=
  ∃ a b c d h i j k, u = [a, b, c, d] ∧ hexDigit a = some h ∧ hexDigit b = some i ∧ hexDigit c = some j ∧ hexDigit d = some k ∧
    n = ((h * 16 + i) * 16 + j) * 16 + k

/-- The short escapes of JSON and the code points they stand for. -/
def escapes : List (Char × Nat) :=
  [('"', 0x22), ('\\', 0x5C), ('/', 0x2F), ('b', 0x8), ('f', 0xC), ('n', 0xA), ('r', 0xD), ('t', 0x9)]

/-- What stands between the quotes of a string, and its text (RFC 8259, section 7). -/
inductive Chars : List Char → List Char → Prop
  | nil : Chars [] []
  | char {c : Char} {u t : List Char} : c ≠ '"' → c ≠ '\\' → 0x20 ≤ c.toNat → Chars u t → Chars (c :: u) (c :: t)
  | short {e x : Char} {u t : List Char} : (e, x.toNat) ∈ escapes → Chars u t → Chars ('\\' :: e :: u) (x :: t)
  | code {h u t : List Char} {x : Char} : Hex h x.toNat → Chars u t → Chars ('\\' :: 'u' :: (h ++ u)) (x :: t)
  | pair {h h' u t : List Char} {x : Char} {n m : Nat} : Hex h n → Hex h' m → 0xD800 ≤ n → n < 0xDC00 → 0xDC00 ≤ m → m < 0xE000 →
      x.toNat = 0x10000 + (n - 0xD800) * 0x400 + (m - 0xDC00) → Chars u t →
      Chars ('\\' :: 'u' :: (h ++ '\\' :: 'u' :: (h' ++ u))) (x :: t)

theorem Raw.chars {u t : List Char} (h : Raw u t) : Chars u t := by
  obtain ⟨rfl, h⟩ := h
  induction u with
  | nil => exact .nil
  | cons c u ih =>
    have := h c (by simp)
    exact .char this.1 this.2.1 this.2.2 (ih fun d hd => h d (by simp [hd]))

/-- JSON. -/
def full : Style := ⟨White, fun g g' _ => White g ∧ White g', Chars⟩

/-- White space without tabs. -/
def Spaces (g : List Char) : Prop := ∀ c ∈ g, c = ' ' ∨ c = '\n' ∨ c = '\r'

/-- JSON without escapes, with space after each colon before an array or an object; space before a colon needs some after it. -/
def spaced : Style := ⟨Spaces, fun g g' e => Spaces g ∧ Spaces g' ∧ (g' ≠ [] ∨ g = [] ∧ isScalar e = true),
  fun u t => Raw u t ∧ ∀ c ∈ u, c ≠ '﻿'⟩

/-- What stands between the quotes of a string, without byte order marks and without the escape for the backspace. -/
inductive Body : List Char → Prop
  | nil : Body []
  | char {c : Char} {u : List Char} : c ≠ '"' → c ≠ '\\' → c ≠ '\uFEFF' → 0x20 ≤ c.toNat → Body u → Body (c :: u)
  | short {e : Char} {u : List Char} : e ∈ ['"', '\\', '/', 'f', 'n', 'r', 't'] → Body u → Body ('\\' :: e :: u)
  | code {h u : List Char} {n : Nat} : Hex h n → Body u → Body ('\\' :: 'u' :: (h ++ u))

/-- JSON with the strings as they are written, with space after each colon before an array or an object; space before a colon needs
some after it. -/
def written : Style := ⟨Spaces, fun g g' e => Spaces g ∧ Spaces g' ∧ (g' ≠ [] ∨ g = [] ∧ isScalar e = true), fun u t => u = t ∧ Body u⟩

theorem spaced_full {k : Part} {u : List Char} {j : Json} (h : Text spaced k u j) : Text full k u j := by
  have w : ∀ {g}, Spaces g → White g := fun h c hc => (h c hc).imp id .inr
  induction h with
  | null => exact .null
  | yes => exact .yes
  | no => exact .no
  | num h => exact .num h
  | str h => exact .str (S := full) h.1.chars
  | noItems h => exact .noItems (S := full) (w h)
  | arr h _ ih => exact .arr (S := full) (w h) ih
  | noPairs h => exact .noPairs (S := full) (w h)
  | obj h _ ih => exact .obj (S := full) (w h) ih
  | item _ h ih => exact .item (S := full) ih (w h)
  | items _ h h' _ ih ih' => exact .items (S := full) ih (w h) (w h') ih'
  | pair h h' _ ih => exact .pair (S := full) h.1.chars ⟨w h'.1, w h'.2.1⟩ ih
  | lastPair _ h ih => exact .lastPair (S := full) ih (w h)
  | pairs _ h h' _ ih ih' => exact .pairs (S := full) ih (w h) (w h') ih'

end Verif.Json
