import Verif.Model.Ast
import Verif.Model.YamlChar

/-!
Layout of a tree as a YAML block document: a list of lines, composed from the lines of the parts.  No buffer, no
indentation counter, no pending text; independent of `encode/writer.go`.
-/

namespace Verif.Layout

open Verif.Ast

abbrev Line := List Char

/-- A line inside of a block indented by `n` columns; empty lines stay empty. -/
def pad (n : Nat) (l : Line) : Line := if l = [] then [] else List.replicate n ' ' ++ l

/-- Lines after a prefix: the first line follows the prefix, the others are indented by two. -/
def hang (p : Line) : List Line → List Line
  | [] => [p]
  | l :: ls => (p ++ l) :: ls.map (pad 2)

/-- The lines of a text; the last one may lack the line feed. -/
def linesOf : List Char → List Line
  | [] => []
  | c :: cs =>
    if c = '\n' then [] :: linesOf cs
    else
      match linesOf cs with
      | [] => [[c]]
      | l :: ls => (c :: l) :: ls

/-- Literal block scalar: chomping indicator `+` (keep) if the text ends with a line feed, else `-` (strip). -/
def literal (t : List Char) : List Line :=
  ['|', if t.getLast? = some '\n' then '+' else '-'] :: linesOf t

def doubleQuoted (t : List Char) : Line := '"' :: YamlChar.convertToDouble t ++ ['"']

/-- Single-quoted: quotes are doubled. -/
def singleQuoted (t : List Char) : Line :=
  '\'' :: t.flatMap (fun c => if c = '\'' then ['\'', '\''] else [c]) ++ ['\'']

/-- Lines of a scalar or alias (`none`: not a scalar, or not writable on one line). -/
def leaf : Node → Option (List Line)
  | .null => some [['n', 'u', 'l', 'l']]
  | .alias a => if '\n' ∈ a then none else some ['*' :: a]
  | .text t .absent => some (if '\n' ∈ t then literal t else [t])
  | .text t .unknown => some [if '\n' ∈ t then doubleQuoted t else t]
  | .text t .double => some [doubleQuoted t]
  | .text t .single => if '\n' ∈ t then none else some [singleQuoted t]
  | _ => none

/-- The properties of a node, with the space before them. -/
def marks : Node → Option Line
  | .properties (.tag t) (.anchor a) =>
    if '\n' ∈ t ∨ '\n' ∈ a then none else some (" !!".toList ++ t ++ " &".toList ++ a)
  | .properties (.tag t) a => if validNode a ∨ '\n' ∈ t then none else some (" !!".toList ++ t)
  | .properties t (.anchor a) => if validNode t ∨ '\n' ∈ a then none else some (" &".toList ++ a)
  | _ => none

/-- A node in the document: its properties, whether it is a collection, and its lines. -/
structure Shape where
  marks : Line
  coll : Bool
  lines : List Line
deriving DecidableEq, Repr

mutual
def shape : Node → Option Shape
  | .sequence es => (items es).map (Shape.mk [] true)
  | .mapping es => (entries es).map (Shape.mk [] true)
  | .content p c =>
    match marks p, shape c with
    | some m, some s => some ⟨m ++ s.marks, s.coll, s.lines⟩
    | _, _ => none
  | n => (leaf n).map (Shape.mk [] false)

/-- The items of a sequence: `- item`. -/
def items : List Node → Option (List Line)
  | [] => some []
  | e :: es =>
    match shape e, items es with
    | some s, some rest => some (hang ('-' :: s.marks ++ [' ']) s.lines ++ rest)
    | _, _ => none

/-- The entries of a mapping: `key: scalar`, or the key alone on its line and the collection indented. -/
def entries : List Node → Option (List Line)
  | [] => some []
  | .mappingEntry k v :: es =>
    match leaf k, shape v, entries es with
    | some [kt], some s, some rest =>
      some ((if s.coll then (kt ++ ':' :: s.marks) :: s.lines.map (pad 2)
        else hang (kt ++ ':' :: s.marks ++ [' ']) s.lines) ++ rest)
    | _, _, _ => none
  | _ :: _ => none
end

/-- The lines, each ended by a line feed. -/
def unlines (ls : List Line) : List Char := ls.flatMap (· ++ ['\n'])

/-- The lines of a document whose root is a collection without properties. -/
def document (n : Node) : Option (List Line) :=
  match shape n with
  | some ⟨[], true, ls⟩ => some ls
  | _ => none

end Verif.Layout
