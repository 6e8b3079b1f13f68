import Verif.Model.Res
import Verif.Model.GoyamlGraph

/-!
Model of `engines/goyaml/decode/raw.go`.
-/

namespace Verif.RawTransformer

open Verif.Goyaml

/-- raw.go:33-37 `dereferencedAliasInfo`. -/
structure Deref where
  parent : Nat
  alias : Nat
  idx : Nat
deriving DecidableEq, Repr

/-- raw.go:20-25 `rawTransformer`, with the memory. -/
structure RT where
  heap : Heap
  topLevelAnchor : List Char := []
  metAnchors : List (List Char) := []
  dereferenced : List Deref := []

/-- raw.go:27-31 `newRawTransformer`. -/
def newRawTransformer (h : Heap) : RT := { heap := h }

/-- `n.Content[i] = c`. -/
def setContent (h : Heap) (n i c : Nat) : Heap := h.write n { h n with content := (h n).content.set i c }

/-- `n.Anchor = s`. -/
def setAnchor (h : Heap) (n : Nat) (s : List Char) : Heap := h.write n { h n with anchor := s }

/-- raw.go:58-67: an alias among the children is replaced by the node it stands for, unless its anchor was met. -/
def replaceAlias (n i child : Nat) (rt : RT) : Res RT :=
  if (rt.heap child).kind = .alias then
    if (rt.heap child).value ∈ rt.metAnchors then .ok rt
    else
      match (rt.heap child).alias with
      -- `n.Content[i] = nil`; the following `rt.visitNode(child)` panics
      | none => .panic
      | some target =>
        .ok { rt with heap := setContent rt.heap n i target, dereferenced := rt.dereferenced ++ [⟨n, child, i⟩] }
  else .ok rt

/-- raw.go:57-69: the loop over the children of `n`, `k` of them left, starting at the index `i`; `visit` is
`visitNode`. -/
def visitChildren (visit : Nat → RT → Res RT) (n : Nat) : Nat → Nat → RT → Res RT
  | 0, _, rt => .ok rt
  | k + 1, i, rt =>
    match (rt.heap n).content[i]? with
    | none => .panic
    | some child => do
      let rt ← replaceAlias n i child rt
      let rt ← visit child rt
      visitChildren visit n k (i + 1) rt

/-- raw.go:49-51: the anchor of a visited node is met. -/
def meet (n : Nat) (rt : RT) : RT :=
  if (rt.heap n).anchor = [] then rt else { rt with metAnchors := (rt.heap n).anchor :: rt.metAnchors }

/-- raw.go:48-71 `visitNode`. -/
def visitNode : Nat → Nat → RT → Res RT
  | 0, _, _ => .timeout
  | f + 1, n, rt =>
    let rt := meet n rt
    match (rt.heap n).kind with
    | .alias =>
      match (rt.heap n).alias with
      | none => .panic
      | some target => visitNode f target rt
    | .document | .mapping | .sequence => visitChildren (visitNode f) n (rt.heap n).content.length 0 rt
    | .zero | .scalar => .ok rt

/-- raw.go:39-46 `transform`: the node to be marshalled. -/
def transform (f n : Nat) (rt : RT) : Res (Nat × RT) := do
  let rt ← visitNode f n { rt with topLevelAnchor := (rt.heap n).anchor, heap := setAnchor rt.heap n [] }
  if (rt.heap n).kind = .alias then
    match (rt.heap n).alias with
    | none => .panic
    | some target => .ok (target, rt)
  else .ok (n, rt)

/-- raw.go:75-77: the loop of `restore`. -/
def restoreAll : List Deref → Heap → Heap
  | [], h => h
  | d :: ds, h => restoreAll ds (setContent h d.parent d.idx d.alias)

/-- raw.go:73-78 `restore`. -/
def restore (n : Nat) (rt : RT) : Heap := restoreAll rt.dereferenced (setAnchor rt.heap n rt.topLevelAnchor)

/-- reader.go:324-326 (in `Raw`): the memory seen by `yaml.Marshal` with the node marshalled, and the memory
afterwards. -/
def rawTransform (f n : Nat) (h : Heap) : Res ((Nat × Heap) × Heap) := do
  let (m, rt) ← transform f n (newRawTransformer h)
  .ok ((m, rt.heap), restore n rt)

end Verif.RawTransformer
