/-!
Model of `engines/yayamls/pkg/cpaccessor/accessor.go` (generic checkpointing accessor).
-/

namespace Verif.CPAccessor

/-- accessor.go:10-16 `CheckpointingAccessor`.

* `stream` is the state of the underlying `ResourceStream` (accessor.go:5-7); the `Next` method of the
  stream is passed to `next` as the function `pull`.
* `ind` is `bufIndicator`: `none` is the constant `withoutBuffer = -1` (accessor.go:22), `some i` is `i`.
* `stack` is `checkpointsStack`, innermost checkpoint first, with the same encoding of `-1`.
* `panicked` is not in the Go struct: it records that an index out of range panic happened. -/
structure Accessor (σ α : Type) where
  stream : σ
  buf : List α
  saved : α
  ind : Option Nat
  stack : List (Option Nat)
  panicked : Bool
deriving DecidableEq, Repr

variable {σ α : Type}

/-- accessor.go:25-31 `NewCheckpointingAccessor` followed by accessor.go:33-36 `SetStream`; `zero` is the
zero value of the element type that `saved` has in a fresh accessor. -/
def new (stream : σ) (zero : α) : Accessor σ α :=
  { stream := stream, buf := [], saved := zero, ind := none, stack := [], panicked := false }

/-- accessor.go:38-43 `Reset` and accessor.go:33-36 `SetStream` on a used accessor (note that `saved` is
kept). -/
def setStream (a : Accessor σ α) (stream : σ) : Accessor σ α :=
  { a with stream := stream, buf := [], ind := none, stack := [] }

/-- accessor.go:46-71 `Next`. -/
def next (pull : σ → α × σ) (a : Accessor σ α) : α × Accessor σ α :=
  match a.ind with
  | none =>
    -- lines 48-57
    let (val, s) := pull a.stream
    if a.stack.length > 0 then
      (val, { a with stream := s, buf := a.buf ++ [val] })
    else
      (val, { a with stream := s, saved := val })
  | some i =>
    -- lines 58-69
    match a.buf[i]? with
    | none => (a.saved, { a with panicked := true })
    | some val =>
      if i + 1 = a.buf.length then
        if a.stack.length = 0 then
          (val, { a with buf := [], ind := none })
        else
          (val, { a with ind := none })
      else
        (val, { a with ind := some (i + 1) })

/-- the conversion of a position `k` to the stored `k-1` (`none` for `-1`) in accessor.go:74-81. -/
def predIdx : Nat → Option Nat
  | 0 => none
  | k + 1 => some k

/-- accessor.go:74-81 `SetCheckpoint`. -/
def setCheckpoint (a : Accessor σ α) : Accessor σ α :=
  match a.ind with
  | none => { a with stack := predIdx a.buf.length :: a.stack }
  | some i => { a with stack := predIdx i :: a.stack }

/-- accessor.go:85-116 `Rollback`. -/
def rollback (a : Accessor σ α) : α × Accessor σ α :=
  match a.stack with
  | [] => (a.saved, a)
  | none :: rest =>
    -- lines 92-99
    if a.buf.length > 0 then
      (a.saved, { a with ind := some 0, stack := rest })
    else
      (a.saved, { a with ind := none, stack := rest })
  | some j :: rest =>
    -- lines 100-111; the check of line 106 is on the stack before the removal, hence never true
    match a.buf[j]? with
    | none => (a.saved, { a with panicked := true })
    | some val =>
      if j + 1 = a.buf.length then
        (val, { a with ind := none, stack := rest })
      else
        (val, { a with ind := some (j + 1), stack := rest })

/-- accessor.go:120-134 `Commit`. -/
def commit (a : Accessor σ α) : Accessor σ α :=
  match a.stack with
  | [] => a
  | [_] =>
    -- lines 123-132
    match a.ind, a.buf.getLast? with
    | none, some v => { a with saved := v, buf := [], stack := [] }
    | _, _ => { a with stack := [] }
  | _ :: rest => { a with stack := rest }

/-- The four operations a client may perform. -/
inductive Op where
  | next | setCheckpoint | rollback | commit
deriving DecidableEq, Repr

/-- One client operation; `some v` if the operation returns the element `v`. -/
def step (pull : σ → α × σ) (a : Accessor σ α) : Op → Option α × Accessor σ α
  | .next => let (v, a') := next pull a; (some v, a')
  | .setCheckpoint => (none, setCheckpoint a)
  | .rollback => let (v, a') := rollback a; (some v, a')
  | .commit => (none, commit a)

/-- A history of client operations: the trace of operations with their results, and the final state. -/
def run (pull : σ → α × σ) (a : Accessor σ α) : List Op → List (Op × Option α) × Accessor σ α
  | [] => ([], a)
  | op :: ops =>
    let (r, a') := step pull a op
    let (rs, a'') := run pull a' ops
    ((op, r) :: rs, a'')

end Verif.CPAccessor
