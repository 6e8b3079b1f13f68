import Verif.Model.Ast
import Verif.Model.Inserter
import Verif.Model.GoyamlBuilder

/-!
Specification of the calls of an `Inserter` (encode.go:22-68).

`Value` is what a client wants to write, `calls` the calls it makes.  `Machine` is the language of the admissible call
sequences, as the documentation of the interface describes it.
-/

namespace Verif.Protocol

open Verif.Ast Verif.Inserter
open Verif.GoyamlBuilder (GNode)

mutual
/-- What a client inserts; `ν` is the type of the trees made of raw texts. -/
inductive Value (ν : Type) where
  | scalar (s : Scalar)
  | seq (vs : Values ν)
  | map (es : Entries ν)
  | raw (n : ν)

inductive Values (ν : Type) where
  | nil
  | cons (v : Value ν) (vs : Values ν)

inductive Entries (ν : Type) where
  | nil
  | cons (k v : Value ν) (es : Entries ν)
end

mutual
/-- The calls which insert a value. -/
def calls {ν : Type} : Value ν → List (Call ν)
  | .scalar s => [.scalar s]
  | .seq vs => .startSequence :: (callsValues vs ++ [.endSequence])
  | .map es => .startMapping :: (callsEntries es ++ [.endMapping])
  | .raw n => [.raw (some n)]

def callsValues {ν : Type} : Values ν → List (Call ν)
  | .nil => []
  | .cons v vs => calls v ++ callsValues vs

def callsEntries {ν : Type} : Entries ν → List (Call ν)
  | .nil => []
  | .cons k v es => calls k ++ (calls v ++ callsEntries es)
end

/-- An unfinished collection: a sequence, a mapping waiting for a key, or a mapping waiting for the value of a key. -/
inductive Frame where
  | sequence
  | key
  | value
deriving DecidableEq, Repr

/-- The frame after a value was put into it. -/
def Frame.next : Frame → Frame
  | .sequence => .sequence
  | .key => .value
  | .value => .key

/-- What a builder was told so far: nothing (or a finished collection), a scalar document, or an unfinished document
with the innermost collection first. -/
inductive Machine where
  | vacant
  | complete
  | opened (f : Frame) (rest : List Frame)
deriving DecidableEq, Repr

/-- The innermost collection is finished. -/
def Machine.close : List Frame → Machine
  | [] => .vacant
  | f :: fs => .opened f fs

/-- A value which is not started and ended with calls of its own. -/
def Machine.insert : Machine → Option Machine
  | .vacant => some .complete
  | .complete => none
  | .opened f fs => some (.opened f.next fs)

/-- A new collection. -/
def Machine.start (g : Frame) : Machine → Option Machine
  | .vacant => some (.opened g [])
  | .complete => none
  | .opened f fs => some (.opened g (f.next :: fs))

/-- One call; `none` is misuse.  `rawRoot` tells in which state a raw document leaves the vacant machine, `none` for
trees which cannot be inserted at all.  `strict = false` admits the end of a mapping which waits for a value. -/
def Machine.step {ν : Type} (strict : Bool) (rawRoot : ν → Option Machine) (m : Machine) : Call ν → Option Machine
  | .scalar _ => m.insert
  | .startSequence => m.start .sequence
  | .endSequence =>
    match m with
    | .opened .sequence fs => some (Machine.close fs)
    | _ => none
  | .startMapping => m.start .key
  | .endMapping =>
    match m with
    | .opened .key fs => some (Machine.close fs)
    | .opened .value fs => if strict then none else some (Machine.close fs)
    | _ => none
  | .raw none => none
  | .raw (some n) =>
    match rawRoot n, m with
    | none, _ => none
    | some r, .vacant => some r
    | some _, m => m.insert
  | .rawText none => none
  | .rawText (some _) => m.insert

/-- A sequence of calls. -/
def Machine.run {ν : Type} (strict : Bool) (rawRoot : ν → Option Machine) (m : Machine) :
    List (Call ν) → Option Machine
  | [] => some m
  | c :: cs =>
    match m.step strict rawRoot c with
    | none => none
    | some m => Machine.run strict rawRoot m cs

/-- The text node of a scalar in the syntax tree of the yayamls engine: numbers, booleans and null are plain; strings
and times are double quoted, except one-line strings of a builder created with `WithUnquotedOneLineStrings`. -/
def scalarTree (unquote : Bool) : Scalar → Node
  | .integer v => .text (Schema.fromInteger v) .absent
  | .unsigned v => .text (Schema.fromUnsignedInteger v) .absent
  | .boolean b => .text (if b then "true".toList else "false".toList) .absent
  | .float t => .text t .absent
  | .string s => .text s (if unquote ∧ '\n' ∉ s then .absent else .double)
  | .timestamp t => .text t .double
  | .null => .null

mutual
/-- The syntax tree of a value in the yayamls engine. -/
def tree (unquote : Bool) : Value Node → Node
  | .scalar s => scalarTree unquote s
  | .seq vs => .sequence (trees unquote vs)
  | .map es => .mapping (entryTrees unquote es)
  | .raw n => n

def trees (unquote : Bool) : Values Node → List Node
  | .nil => []
  | .cons v vs => tree unquote v :: trees unquote vs

def entryTrees (unquote : Bool) : Entries Node → List Node
  | .nil => []
  | .cons k v es => .mappingEntry (tree unquote k) (tree unquote v) :: entryTrees unquote es
end

/-- The node of a scalar in the goyaml engine. -/
def scalarGTree (unquote : Bool) : Scalar → GNode
  | .integer v => .scalar [] (Schema.fromInteger v) false
  | .unsigned v => .scalar [] (Schema.fromUnsignedInteger v) false
  | .boolean b => .scalar [] (if b then "true".toList else "false".toList) false
  | .float t => .scalar [] t false
  | .string s => .scalar [] s (if unquote ∧ '\n' ∉ s then false else true)
  | .timestamp t => .scalar [] t true
  | .null => .scalar "!!null".toList "null".toList false

mutual
/-- The tree of a value in the goyaml engine: a mapping lists keys and values by turns. -/
def gtree (unquote : Bool) : Value GNode → GNode
  | .scalar s => scalarGTree unquote s
  | .seq vs => .sequence (gtrees unquote vs)
  | .map es => .mapping (gentries unquote es)
  | .raw n => n

def gtrees (unquote : Bool) : Values GNode → List GNode
  | .nil => []
  | .cons v vs => gtree unquote v :: gtrees unquote vs

def gentries (unquote : Bool) : Entries GNode → List GNode
  | .nil => []
  | .cons k v es => gtree unquote k :: gtree unquote v :: gentries unquote es
end

mutual
/-- The raw trees inside a value. -/
def raws {ν : Type} : Value ν → List ν
  | .scalar _ => []
  | .seq vs => rawsValues vs
  | .map es => rawsEntries es
  | .raw n => [n]

def rawsValues {ν : Type} : Values ν → List ν
  | .nil => []
  | .cons v vs => raws v ++ rawsValues vs

def rawsEntries {ν : Type} : Entries ν → List ν
  | .nil => []
  | .cons k v es => raws k ++ (raws v ++ rawsEntries es)
end

end Verif.Protocol
