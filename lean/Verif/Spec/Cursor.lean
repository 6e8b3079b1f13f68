import Verif.Model.CPAccessor

/-!
Specification of a checkpointing reader: a cursor over a stream with a stack of remembered positions.
-/

namespace Verif.Spec.Cursor

open Verif.CPAccessor (Op)

/-- A cursor: current position, positions of the open checkpoints (innermost first), and the number of
elements of the stream that have been looked at so far. -/
structure Cursor where
  pos : Nat
  cps : List Nat
  seen : Nat
deriving DecidableEq, Repr

/-- The cursor at the start of the stream. -/
def start : Cursor := ⟨0, [], 0⟩

/-- How an operation moves the cursor. -/
def move (c : Cursor) : Op → Cursor
  | .next => { c with pos := c.pos + 1, seen := max c.seen (c.pos + 1) }
  | .setCheckpoint => { c with cps := c.pos :: c.cps }
  | .rollback =>
    match c.cps with
    | [] => c
    | p :: ps => { c with pos := p, cps := ps }
  | .commit => { c with cps := c.cps.tail }

/-- The cursor after a history. -/
def moves (c : Cursor) (ops : List Op) : Cursor := ops.foldl move c

/-- The elements `Next` has to return along a history, in order. -/
def reads {α : Type} (s : Nat → α) (c : Cursor) : List Op → List α
  | [] => []
  | .next :: ops => s c.pos :: reads s (move c .next) ops
  | op :: ops => reads s (move c op) ops

/-- What `Rollback` has to return along a history, in order: the element before the restored position;
`none` where there is none (no open checkpoint, or the checkpoint is at the start of the stream). -/
def restored {α : Type} (s : Nat → α) (c : Cursor) : List Op → List (Option α)
  | [] => []
  | .rollback :: ops =>
    (match c.cps with
      | (p + 1) :: _ => some (s p)
      | _ => none) :: restored s (move c .rollback) ops
  | op :: ops => restored s (move c op) ops

/-- A history in which the last of the elements kept for replay is never re-read outside of all
checkpoints. -/
def NoBareDrain (c : Cursor) : List Op → Prop
  | [] => True
  | op :: ops =>
    ¬ (op = .next ∧ c.cps = [] ∧ c.pos + 1 = c.seen) ∧ NoBareDrain (move c op) ops

end Verif.Spec.Cursor
