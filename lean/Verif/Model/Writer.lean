import Verif.Model.Ast
import Verif.Model.Inserter
import Verif.Model.YamlChar

/-!
Model of `engines/yayamls/encode/writer.go`, without an anchors keeper (`opts.anchorsKeeper == nil`: no code of the
repository passes one outside of tests).  The buffer holds characters instead of bytes; the only byte inspected is the
last one, compared with a line feed.
-/

namespace Verif.Writer

open Verif.Ast Verif.Inserter

/-- writer.go:24-36 `ASTWriter` (`indentationDelta` is never changed, see `delta`). -/
structure Writer where
  buf : List Char
  errors : Nat
  indentation : Int
  beforeComplex : List Char
  beforeSimple : List Char
  metAnchors : List (List Char)
deriving DecidableEq, Repr

/-- writer.go:14-17 `defaultIndendationDelta`. -/
def delta : Int := 2

/-- writer.go:38-52 `NewASTWriter`. -/
def newWriter : Writer :=
  { buf := [], errors := 0, indentation := 0, beforeComplex := [], beforeSimple := [], metAnchors := [] }

/-- writer.go:367-374 `reset`. -/
def reset (w : Writer) : Writer :=
  { w with buf := [], errors := 0, indentation := 0, beforeSimple := [], beforeComplex := [], metAnchors := [] }

/-- `bytes.Buffer.WriteString`/`WriteByte`/`WriteRune`. -/
def put (w : Writer) (s : List Char) : Writer := { w with buf := w.buf ++ s }

/-- writer.go:277-279 `writeBeforeComplexElements`, 281-283 `writeBeforeSimpleElements`. -/
def before (w : Writer) (complex simple : List Char) : Writer := { w with beforeComplex := complex, beforeSimple := simple }

/-- writer.go:285-296 `writePreparedData`, for sequences and mappings. -/
def preparedComplex (w : Writer) : Writer := before (put w w.beforeComplex) [] []

/-- writer.go:285-296 `writePreparedData`, for scalars and aliases. -/
def preparedSimple (w : Writer) : Writer := before (put w w.beforeSimple) [] []

/-- writer.go:298-300 `increaseIndentation`. -/
def increase (w : Writer) : Writer := { w with indentation := w.indentation + delta }

/-- writer.go:302-304 `decreaseIndentation`. -/
def decrease (w : Writer) : Writer := { w with indentation := w.indentation - delta }

/-- writer.go:306-311 `writeIndentation` (`buf.Grow` of a negative count would panic; see `indentation_nonneg`). -/
def writeIndentation (w : Writer) : Writer := put w (List.replicate w.indentation.toNat ' ')

/-- writer.go:313-316 `hasWriteLineBreak`. -/
def hasWriteLineBreak (w : Writer) : Bool := w.buf.getLast? == some '\n'

/-- writer.go:318-322 `maybeWriteIndentation`. -/
def maybeWriteIndentation (w : Writer) : Writer := if hasWriteLineBreak w then writeIndentation w else w

/-- writer.go:324-328 `maybeWriteLineBreak`. -/
def maybeWriteLineBreak (w : Writer) : Writer := if hasWriteLineBreak w then w else put w ['\n']

/-- `strings.Split(s, "\n")`, writer.go:331. -/
def splitLines : List Char → List (List Char)
  | [] => [[]]
  | c :: cs =>
    if c = '\n' then [] :: splitLines cs
    else
      match splitLines cs with
      | [] => [[c]]
      | l :: ls => (c :: l) :: ls

/-- writer.go:330-345 `writeMultilineLiteralText`. -/
def writeMultilineLiteralText (w : Writer) (txt : List Char) : Writer :=
  let lines := splitLines txt
  let chomping := if lines.getLast? = some [] then '+' else '-'
  lines.foldl
    (fun w line =>
      let w := put w ['\n']
      if line.isEmpty then w else put (writeIndentation w) line)
    (put (put w ['|']) [chomping])

/-- writer.go:347-355 `writeSingleQuotedText` (the conversion never fails, yamlchar/transformations.go:43-45). -/
def writeSingleQuotedText (w : Writer) (txt : List Char) : Writer :=
  put (put (put w ['\'']) (YamlChar.convertToSingle txt)) ['\'']

/-- writer.go:357-365 `writeDoubleQuotedText` (the conversion never fails, yamlchar/transformations.go:82-93). -/
def writeDoubleQuotedText (w : Writer) (txt : List Char) : Writer :=
  put (put (put w ['"']) (YamlChar.convertToDouble txt)) ['"']

/-- writer.go:175-195 `VisitTextNode`. -/
def visitText (w : Writer) (txt : List Char) (q : Quoting) : Writer :=
  let w := preparedSimple w
  match q with
  | .absent => if isMultiline txt then writeMultilineLiteralText w txt else put w txt
  | .single => writeSingleQuotedText w txt
  | .double => writeDoubleQuotedText w txt
  | .unknown => if isMultiline txt then writeDoubleQuotedText w txt else put w txt

/-- writer.go:380-389 `isComplex`; `none` is a nil pointer panic. -/
def isComplex : Node → Option Bool
  | .nil => none
  | .sequence _ => some true
  | .mapping _ => some true
  | .content _ c => isComplex c
  | _ => some false

mutual
/-- `n.Accept(w)` with the visiting methods writer.go:133-275; `none` is a nil pointer panic.  The nodes without a
visiting method do nothing (ast/node.go:168,307,415). -/
def visit : Node → Writer → Option Writer
  | .nil, _ => none
  | .basic _, w => some w
  | .blockHeader _ _, w => some w
  | .indent _, w => some w
  -- 133-139
  | .stream docs, w => visitDocuments docs w
  -- 141-144
  | .tag t, w => some (put (put w "!!".toList) t)
  -- 146-155
  | .anchor t, w => some (put (put w ['&']) t)
  -- 157-173
  | .alias t, w => some (put (put (preparedSimple w) ['*']) t)
  | .text t q, w => some (visitText w t q)
  -- 197-209
  | .sequence es, w => visitSequence es (preparedComplex w)
  -- 211-218
  | .mapping es, w => visitMapping es (preparedComplex w)
  -- 220-242
  | .mappingEntry k v, w =>
    match isComplex k with
    | none => none
    | some complex =>
      match visit k (if complex then increase (put w "? ".toList) else w) with
      | none => none
      | some w =>
        let w := if complex then decrease w else w
        match visit v (increase (before (put w [':']) ['\n'] [' '])) with
        | none => none
        | some w => some (decrease w)
  -- 244-247
  | .null, w => some (put (preparedSimple w) "null".toList)
  -- 249-261
  | .properties tag anchor, w =>
    match (if validNode tag then visit tag w else some w) with
    | none => none
    | some w =>
      if validNode anchor then visit anchor (if validNode tag then put w [' '] else w) else some w
  -- 263-275
  | .content props c, w =>
    match (if validNode props then visit props (put w [' ']) else some w) with
    | none => none
    | some w => visit c w

/-- writer.go:134-138 -/
def visitDocuments : List Node → Writer → Option Writer
  | [], w => some w
  | d :: ds, w =>
    match visit d (put w "---\n".toList) with
    | none => none
    | some w => visitDocuments ds (put w "...\n".toList)

/-- writer.go:199-208 -/
def visitSequence : List Node → Writer → Option Writer
  | [], w => some w
  | e :: es, w =>
    match visit e (before (increase (put (maybeWriteIndentation w) ['-'])) [' '] [' ']) with
    | none => none
    | some w => visitSequence es (maybeWriteLineBreak (decrease w))

/-- writer.go:213-217 -/
def visitMapping : List Node → Writer → Option Writer
  | [], w => some w
  | e :: es, w =>
    match visit e (maybeWriteIndentation w) with
    | none => none
    | some w => visitMapping es (maybeWriteLineBreak w)
end

/-- The outcome of a write. -/
inductive Outcome where
  | text (s : List Char)
  | failed
  | ioFailed
  | panicked
deriving DecidableEq, Repr

/-- writer.go:111-119 `write`: the writer afterwards and whether it failed; `none` is a panic. -/
def write (w : Writer) (n : Node) : Option (Writer × Bool) :=
  match visit n (reset w) with
  | none => none
  | some w => some (w, w.errors > 0)

/-- writer.go:82-92 `WriteTo`.  `sink` is the destination: it takes a prefix of the text; `none` is an input/output
error, after which the rest of the text stays in the buffer. -/
def writeTo (sink : Option Unit) (w : Writer) (n : Node) : Outcome × Option Writer :=
  match write w n with
  | none => (.panicked, none)
  | some (w, true) => (.failed, some w)
  | some (w, false) =>
    match sink with
    | none => (.ioFailed, some w)
    | some () => (.text w.buf, some { w with buf := [] })

/-- writer.go:94-100 `WriteString`: `WriteTo` into a `strings.Builder`, which takes everything. -/
def writeString (w : Writer) (n : Node) : Outcome × Option Writer := writeTo (some ()) w n

/-- writer.go:102-109 `WriteBytes`. -/
def writeBytes (w : Writer) (n : Node) : Outcome × Option Writer :=
  match write w n with
  | none => (.panicked, none)
  | some (w, true) => (.failed, some w)
  | some (w, false) => (.text w.buf, some { w with buf := [] })

end Verif.Writer
