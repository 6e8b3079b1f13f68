import Verif.Model.Ast
import Verif.Model.Inserter

/-!
Model of `engines/yayamls/encode/builder.go`.

The builder changes nodes through the pointers of its route, therefore its nodes live in a heap: an address is an index
of a list of cells, an allocation appends a cell.  `Reads` tells which tree of `Verif.Ast` hangs at an address.
-/

namespace Verif.Builder

open Verif.Ast Verif.Inserter


/-- The node structures which the builder creates or changes (ast/node.go:423-501); all the others are leaves for it. -/
inductive Cell where
  | leaf (n : Node)
  | seq (entries : List Nat)
  | map (entries : List Nat)
  | entry (key : Nat) (value : Option Nat)
deriving Repr

/-- ast/node.go `Type()` of a cell. -/
def Cell.type : Cell → NodeType
  | .leaf n => n.type?.getD .invalid
  | .seq _ => .sequence
  | .map _ => .mapping
  | .entry _ _ => .mappingEntry

/-- The errors latched by the builder (texts are not modelled): builder.go:93,95,113,115,126,131,135,146,196. -/
inductive Err where
  | endSequenceInvalid
  | endSequenceAt (ty : NodeType)
  | endMappingInvalid
  | endMappingAt (ty : NodeType)
  | rawFailed
  | rawStream
  | insertAt (ty : NodeType)
deriving DecidableEq, Repr

/-- builder.go:16-23 `ASTBuilder`, with the heap.  The head of `route` is the current node. -/
structure Builder where
  heap : List Cell
  root : Option Nat
  route : List Nat
  unquoteOneliners : Bool
  fatalError : Option Err
deriving Repr

/-- builder.go:40-47 `NewASTBuilder`. -/
def newBuilder (unquoteOneliners : Bool) : Builder :=
  { heap := [], root := none, route := [], unquoteOneliners, fatalError := none }

/-- Allocation of a node structure. -/
def alloc (b : Builder) (c : Cell) : Nat × Builder :=
  (b.heap.length, { b with heap := b.heap ++ [c] })

/-- builder.go:206-211 `currentNode` (`none`: no current node, or — see `ValidNode`, ast/node.go:155-157 — an invalid
one). -/
def currentNode (b : Builder) : Option (Nat × Cell) :=
  match b.route with
  | [] => none
  | a :: _ =>
    match b.heap[a]? with
    | none => none
    | some c => if c.type = .invalid then none else some (a, c)

/-- builder.go:213-215 `pushNode`. -/
def pushNode (b : Builder) (n : Nat) : Builder := { b with route := n :: b.route }

/-- builder.go:217-222 `popNode`. -/
def popNode (b : Builder) : Builder := { b with route := b.route.tail }

/-- builder.go:171-204 `insertNode`.  `n` is allocated already. -/
def insertNode (b : Builder) (n : Nat) (pushToRoute : Bool) : Builder :=
  if b.fatalError.isSome then b
  else
    match currentNode b with
    | none => { pushNode b n with root := some n }
    | some (a, c) =>
      let b :=
        match c with
        | .map es =>
          let (e, b) := alloc b (.entry n none)
          pushNode { b with heap := b.heap.set a (.map (es ++ [e])) } e
        | .entry k _ => popNode { b with heap := b.heap.set a (.entry k (some n)) }
        | .seq es => { b with heap := b.heap.set a (.seq (es ++ [n])) }
        | .leaf l => { b with fatalError := some (.insertAt (Cell.leaf l).type) }
      if pushToRoute then pushNode b n else b

/-- Insertion of a new node structure. -/
def insertCell (b : Builder) (c : Cell) (pushToRoute : Bool) : Builder :=
  let (n, b) := alloc b c
  insertNode b n pushToRoute

/-- builder.go:49-79 the scalar insertions with their quoting types, 161-169 `insertNonNullValue`. -/
def scalarNode (unquoteOneliners : Bool) (s : Scalar) : Node :=
  match s with
  | .null => .null
  | .string t =>
    .text t (if unquoteOneliners && !isMultiline t then .absent else .double)
  | .timestamp t => .text t .double
  | s => .text s.text .absent

mutual
/-- The nodes of a parsed tree as cells.  The parser allocates them; the order is immaterial. -/
def load (h : List Cell) : Node → Nat × List Cell
  | .sequence es =>
    let (as, h) := loadList h es
    (h.length, h ++ [.seq as])
  | .mapping es =>
    let (as, h) := loadList h es
    (h.length, h ++ [.map as])
  | .mappingEntry k v =>
    let (ka, h) := load h k
    match v with
    | .nil => (h.length, h ++ [.entry ka none])
    | v =>
      let (va, h) := load h v
      (h.length, h ++ [.entry ka (some va)])
  | n => (h.length, h ++ [.leaf n])

/-- See `load`. -/
def loadList (h : List Cell) : List Node → List Nat × List Cell
  | [] => ([], h)
  | n :: ns =>
    let (a, h) := load h n
    let (as, h) := loadList h ns
    (a :: as, h)
end

/-- builder.go:86-99 `EndSequence`. -/
def endSequence (b : Builder) : Builder :=
  if b.fatalError.isSome then b
  else
    match currentNode b with
    | none => { b with fatalError := some .endSequenceInvalid }
    | some (_, .seq _) => popNode b
    | some (_, c) => { b with fatalError := some (.endSequenceAt c.type) }

/-- builder.go:106-119 `EndMapping`. -/
def endMapping (b : Builder) : Builder :=
  if b.fatalError.isSome then b
  else
    match currentNode b with
    | none => { b with fatalError := some .endMappingInvalid }
    | some (_, .map _) => popNode b
    | some (_, c) => { b with fatalError := some (.endMappingAt c.type) }

/-- builder.go:49-79 -/
def insertScalar (b : Builder) (s : Scalar) : Builder :=
  insertCell b (.leaf (scalarNode b.unquoteOneliners s)) false

/-- builder.go:121-139 `InsertRaw`; `none` is an error passed along or found by the parser. -/
def insertRaw (b : Builder) (tree : Option Node) : Builder :=
  if b.fatalError.isSome then b
  else
    match tree with
    | none => { b with fatalError := some .rawFailed }
    | some t =>
      if t.type? = some .stream then { b with fatalError := some .rawStream }
      else
        let (a, h) := load b.heap t
        insertNode { b with heap := h } a false

/-- builder.go:141-150 `InsertRawText`. -/
def insertRawText (b : Builder) (text : Option (List Char)) : Builder :=
  if b.fatalError.isSome then b
  else
    match text with
    | none => { b with fatalError := some .rawFailed }
    | some t => insertScalar b (.string t)

/-- builder.go:49-150 the methods of `ASTBuilder`; 81-84 `StartSequence`, 101-104 `StartMapping`. -/
def step (b : Builder) : Call Node → Builder
  | .scalar s => insertScalar b s
  | .startSequence => insertCell b (.seq []) true
  | .endSequence => endSequence b
  | .startMapping => insertCell b (.map []) true
  | .endMapping => endMapping b
  | .raw t => insertRaw b t
  | .rawText t => insertRawText b t

def run (b : Builder) (cs : List (Call Node)) : Builder := cs.foldl step b

/-- builder.go:152-159 `Result`. -/
def result (b : Builder) : (Option Nat × Option Err) × Builder :=
  ((b.root, b.fatalError), { b with route := [], root := none, fatalError := none })

mutual
/-- `Reads h P a n`: the tree at the address `a` is `n`, all its cells satisfying `P`. -/
inductive Reads (h : List Cell) (P : Nat → Prop) : Nat → Node → Prop
  | leaf {a n} : P a → h[a]? = some (.leaf n) → Reads h P a n
  | seq {a as ns} : P a → h[a]? = some (.seq as) → ReadsList h P as ns → Reads h P a (.sequence ns)
  | map {a as ns} : P a → h[a]? = some (.map as) → ReadsList h P as ns → Reads h P a (.mapping ns)
  | entryNone {a k nk} : P a → h[a]? = some (.entry k none) → Reads h P k nk → Reads h P a (.mappingEntry nk .nil)
  | entry {a k v nk nv} : P a → h[a]? = some (.entry k (some v)) → Reads h P k nk → Reads h P v nv →
      Reads h P a (.mappingEntry nk nv)

/-- See `Reads`. -/
inductive ReadsList (h : List Cell) (P : Nat → Prop) : List Nat → List Node → Prop
  | nil : ReadsList h P [] []
  | cons {a as n ns} : Reads h P a n → ReadsList h P as ns → ReadsList h P (a :: as) (n :: ns)
end

end Verif.Builder
