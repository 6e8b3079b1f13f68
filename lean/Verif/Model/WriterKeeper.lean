import Verif.Model.Writer
import Verif.Model.AnyBuilder
import Verif.Model.Res

/-!
Model of `engines/yayamls/encode/writer.go` with an anchors keeper (`WithAnchorsKeeper`).  The parts which do not depend on the keeper are
those of `Verif.Model.Writer`.
-/

namespace Verif.WriterKeeper

open Verif.Ast Verif.Inserter Verif.Writer

/-- writer.go:54-65 `AnchorsKeeper`: an object with a state; `deref` gives `none` for an error. -/
structure Keeper (κ : Type) where
  store : κ → List Char → κ
  bind : κ → Node → κ
  deref : κ → List Char → Option Node

/-- The state of a writer and of its keeper. -/
abbrev St (κ : Type) := Writer × κ

variable {κ : Type}

mutual
/-- `n.Accept(w)` with the visiting methods writer.go:133-275; `deref` visits the node behind an alias.  The nodes without a visiting
method do nothing (ast/node.go:168,307,415). -/
def visitK (K : Keeper κ) (deref : Node → St κ → Res (St κ)) : Node → St κ → Res (St κ)
  | .nil, _ => .panic
  | .basic _, s => .ok s
  | .blockHeader _ _, s => .ok s
  | .indent _, s => .ok s
  -- 133-139
  | .stream docs, s => documentsK K deref docs s
  -- 141-144
  | .tag t, (w, k) => .ok (put (put w "!!".toList) t, k)
  -- 146-155
  | .anchor t, (w, k) =>
    .ok ({ put (put w ['&']) t with metAnchors := t :: w.metAnchors }, K.store k t)
  -- 157-173
  | .alias t, (w, k) =>
    if !w.metAnchors.contains t then
      match K.deref k t with
      | none => .ok ({ w with errors := w.errors + 1 }, k)
      | some n => if validNode n then deref n (w, k) else .ok (w, k)
    else .ok (put (put (preparedSimple w) ['*']) t, k)
  -- 175-195
  | .text t q, (w, k) => .ok (visitText w t q, k)
  -- 197-209
  | .sequence es, (w, k) => sequenceK K deref es (preparedComplex w, k)
  -- 211-218
  | .mapping es, (w, k) => mappingK K deref es (preparedComplex w, k)
  -- 220-242
  | .mappingEntry key v, (w, k) =>
    match isComplex key with
    | none => .panic
    | some complex => do
      let (w, k) ← visitK K deref key (if complex then increase (put w "? ".toList) else w, k)
      let w := if complex then decrease w else w
      let (w, k) ← visitK K deref v (increase (before (put w [':']) ['\n'] [' ']), k)
      .ok (decrease w, k)
  -- 244-247
  | .null, (w, k) => .ok (put (preparedSimple w) "null".toList, k)
  -- 249-261
  | .properties tag anchor, s => do
    let (w, k) ← if validNode tag then visitK K deref tag s else .ok s
    if validNode anchor then visitK K deref anchor (if validNode tag then put w [' '] else w, k) else .ok (w, k)
  -- 263-275
  | .content props c, (w, k) => do
    let s ←
      if validNode props then do
        let (w, k) ← visitK K deref props (put w [' '], k)
        .ok (w, K.bind k (.content props c))
      else .ok (w, k)
    visitK K deref c s

/-- writer.go:134-138 -/
def documentsK (K : Keeper κ) (deref : Node → St κ → Res (St κ)) : List Node → St κ → Res (St κ)
  | [], s => .ok s
  | d :: ds, (w, k) => do
    let (w, k) ← visitK K deref d (put w "---\n".toList, k)
    documentsK K deref ds (put w "...\n".toList, k)

/-- writer.go:199-208 -/
def sequenceK (K : Keeper κ) (deref : Node → St κ → Res (St κ)) : List Node → St κ → Res (St κ)
  | [], s => .ok s
  | e :: es, (w, k) => do
    let (w, k) ← visitK K deref e (before (increase (put (maybeWriteIndentation w) ['-'])) [' '] [' '], k)
    sequenceK K deref es (maybeWriteLineBreak (decrease w), k)

/-- writer.go:213-217 -/
def mappingK (K : Keeper κ) (deref : Node → St κ → Res (St κ)) : List Node → St κ → Res (St κ)
  | [], s => .ok s
  | e :: es, (w, k) => do
    let (w, k) ← visitK K deref e (maybeWriteIndentation w, k)
    mappingK K deref es (maybeWriteLineBreak w, k)
end

/-- `n.Accept(w)`; the fuel bounds the depth of aliases behind aliases (writer.go:165). -/
def accept (K : Keeper κ) : Nat → Node → St κ → Res (St κ)
  | 0, _, _ => .timeout
  | f + 1, n, s => visitK K (accept K f) n s

/-- writer.go:94-100 `WriteString` with 82-92 `WriteTo` and 111-119 `write`: the outcome, the writer and the keeper afterwards.  `reset`
leaves the keeper as it is (367-374). -/
def writeStringK (K : Keeper κ) (f : Nat) (w : Writer) (k : κ) (n : Node) : Res (Outcome × St κ) := do
  let (w, k) ← accept K f n (reset w, k)
  if w.errors > 0 then .ok (.failed, (w, k))
  else .ok (.text w.buf, ({ w with buf := [] }, k))

/-- decode/anchors.go:7-37 `anchorsKeeper`, the implementation of the repository. -/
def anchorsKeeper : Keeper AnyBuilder.Anchors where
  store := AnyBuilder.Anchors.store
  bind := AnyBuilder.Anchors.bind
  deref := AnyBuilder.Anchors.dereference

end Verif.WriterKeeper
