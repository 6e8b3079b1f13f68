import Verif.Model.Inserter

/-!
Model of `engines/goyaml/encode/builder.go`: the tree builder of the goyaml engine, whose trees are `yaml.Node`s of
gopkg.in/yaml.v3.  The heap is as in `Verif.Model.Builder`.
-/

namespace Verif.GoyamlBuilder

open Verif.Inserter

/-- A `yaml.Node` of gopkg.in/yaml.v3 as a tree: the fields `Kind`, `Tag`, `Style` (here: double quoted or not) and `Value`
of scalars, `Content` of collections.  `other` stands for the kinds which the builder only passes along (aliases, the zero
node). -/
inductive GNode where
  | scalar (tag value : List Char) (doubleQuoted : Bool)
  | sequence (content : List GNode)
  | mapping (content : List GNode)
  | other (id : Nat)
deriving Repr, Inhabited

/-- A `yaml.Node` in the heap. -/
inductive Cell where
  | leaf (n : GNode)
  | coll (isMap : Bool) (content : List Nat)
deriving Repr

/-- The errors latched by the builder: builder.go:101,103,128,130,144,149,166,207. -/
inductive Err where
  | endSequence
  | endMapping
  | rawFailed
  | insert
deriving DecidableEq, Repr

/-- builder.go:15-22 `ASTBuilder`, with the heap.  The head of `route` is the current node. -/
structure Builder where
  heap : List Cell
  root : Option Nat
  route : List Nat
  unquoteOneliners : Bool
  fatalError : Option Err
deriving Repr

/-- builder.go:36-44 `NewASTBuilder`. -/
def newBuilder (unquoteOneliners : Bool) : Builder :=
  { heap := [], root := none, route := [], unquoteOneliners, fatalError := none }

/-- builder.go:217-222 `currentNode`. -/
def currentNode (b : Builder) : Option (Nat × Cell) :=
  match b.route with
  | [] => none
  | a :: _ =>
    match b.heap[a]? with
    | none => none
    | some c => some (a, c)

/-- builder.go:224-226 `pushNode`. -/
def pushNode (b : Builder) (n : Nat) : Builder := { b with route := n :: b.route }

/-- builder.go:228-233 `popNode`. -/
def popNode (b : Builder) : Builder := { b with route := b.route.tail }

/-- builder.go:192-215 `insertNode`; `n` is allocated already. -/
def insertNode (b : Builder) (n : Nat) (pushToRoute : Bool) : Builder :=
  if b.fatalError.isSome then b
  else
    match currentNode b with
    | none => { pushNode b n with root := some n }
    | some (a, c) =>
      let b :=
        match c with
        | .coll m es => { b with heap := b.heap.set a (.coll m (es ++ [n])) }
        | .leaf _ => { b with fatalError := some .insert }
      if pushToRoute then pushNode b n else b

/-- Insertion of a new node. -/
def insertCell (b : Builder) (c : Cell) (pushToRoute : Bool) : Builder :=
  insertNode { b with heap := b.heap ++ [c] } b.heap.length pushToRoute

/-- builder.go:46-83 the scalar insertions with their styles, 181-190 `insertNonNullValue`. -/
def scalarNode (unquoteOneliners : Bool) (s : Scalar) : GNode :=
  match s with
  | .null => .scalar "!!null".toList "null".toList false
  | .string t => .scalar [] t (!(unquoteOneliners && !isMultiline t))
  | .timestamp t => .scalar [] t true
  | s => .scalar [] s.text false

mutual
/-- The nodes of a tree made by `yaml.Unmarshal`, as cells. -/
def load (h : List Cell) : GNode → Nat × List Cell
  | .sequence es =>
    let (as, h) := loadList h es
    (h.length, h ++ [.coll false as])
  | .mapping es =>
    let (as, h) := loadList h es
    (h.length, h ++ [.coll true as])
  | n => (h.length, h ++ [.leaf n])

/-- See `load`. -/
def loadList (h : List Cell) : List GNode → List Nat × List Cell
  | [] => ([], h)
  | n :: ns =>
    let (a, h) := load h n
    let (as, h) := loadList h ns
    (a :: as, h)
end

/-- builder.go:94-110 `EndSequence`. -/
def endSequence (b : Builder) : Builder :=
  if b.fatalError.isSome then b
  else
    match currentNode b with
    | some (_, .coll false _) => popNode b
    | _ => { b with fatalError := some .endSequence }

/-- builder.go:121-137 `EndMapping`. -/
def endMapping (b : Builder) : Builder :=
  if b.fatalError.isSome then b
  else
    match currentNode b with
    | some (_, .coll true _) => popNode b
    | _ => { b with fatalError := some .endMapping }

/-- builder.go:46-83 -/
def insertScalar (b : Builder) (s : Scalar) : Builder :=
  insertCell b (.leaf (scalarNode b.unquoteOneliners s)) false

/-- builder.go:139-159 `InsertRaw`; `none` is an error passed along or found by `yaml.Unmarshal`; the document node is
unwrapped already. -/
def insertRaw (b : Builder) (tree : Option GNode) : Builder :=
  if b.fatalError.isSome then b
  else
    match tree with
    | none => { b with fatalError := some .rawFailed }
    | some t =>
      let (a, h) := load b.heap t
      insertNode { b with heap := h } a false

/-- builder.go:161-170 `InsertRawText`. -/
def insertRawText (b : Builder) (text : Option (List Char)) : Builder :=
  if b.fatalError.isSome then b
  else
    match text with
    | none => { b with fatalError := some .rawFailed }
    | some t => insertScalar b (.string t)

/-- builder.go:46-170 the methods of `ASTBuilder`; 85-92 `StartSequence`, 112-119 `StartMapping`. -/
def step (b : Builder) : Call GNode → Builder
  | .scalar s => insertScalar b s
  | .startSequence => insertCell b (.coll false []) true
  | .endSequence => endSequence b
  | .startMapping => insertCell b (.coll true []) true
  | .endMapping => endMapping b
  | .raw t => insertRaw b t
  | .rawText t => insertRawText b t

def run (b : Builder) (cs : List (Call GNode)) : Builder := cs.foldl step b

/-- builder.go:172-179 `Result`. -/
def result (b : Builder) : (Option Nat × Option Err) × Builder :=
  ((b.root, b.fatalError), { b with route := [], root := none, fatalError := none })

mutual
/-- `Reads h P a n`: the tree at the address `a` is `n`, all its cells satisfying `P`. -/
inductive Reads (h : List Cell) (P : Nat → Prop) : Nat → GNode → Prop
  | leaf {a n} : P a → h[a]? = some (.leaf n) → Reads h P a n
  | seq {a as ns} : P a → h[a]? = some (.coll false as) → ReadsList h P as ns → Reads h P a (.sequence ns)
  | map {a as ns} : P a → h[a]? = some (.coll true as) → ReadsList h P as ns → Reads h P a (.mapping ns)

/-- See `Reads`. -/
inductive ReadsList (h : List Cell) (P : Nat → Prop) : List Nat → List GNode → Prop
  | nil : ReadsList h P [] []
  | cons {a as n ns} : Reads h P a n → ReadsList h P as ns → ReadsList h P (a :: as) (n :: ns)
end

end Verif.GoyamlBuilder
