import Verif.Lemmas.CPAccessor

/-!
C01, C02: the checkpointing accessor against the cursor specification (`Verif.Spec.Cursor`).
-/

namespace Verif.Props.Accessor

open Verif.CPAccessor Verif.Spec.Cursor

variable {α : Type}

/-- **C01.** Over any stream `s` and after any history of operations, the `Next` calls returned exactly the
stream elements at the cursor positions, and no index panic happened. -/
theorem next_returns_element_at_cursor (s : Nat → α) (zero : α) (ops : List Op) :
    nextResults (run (pullAt s) (new 0 zero) ops).1 = (reads s start ops).map some ∧
    (run (pullAt s) (new 0 zero) ops).2.panicked = false :=
  ⟨run_reads ops (rel_new s zero), (rel_run ops (rel_new s zero)).np⟩

/-- **C01**, elements pulled: the accessor asks its stream for an element only if the cursor moves to a
position never reached before, so no element is ever fetched twice or skipped. -/
theorem pulled_eq_seen (s : Nat → α) (zero : α) (ops : List Op) :
    (run (pullAt s) (new 0 zero) ops).2.stream = (moves start ops).seen :=
  (rel_run ops (rel_new s zero)).seen

/-- **C01** for an accessor taken from the pool: whatever was read through it before, with whatever checkpoints left open, after
`Reset` and `SetStream` it reads the new stream from its beginning. -/
theorem reset_reads_afresh (s s' : Nat → α) (zero : α) (ops ops' : List Op) :
    nextResults (run (pullAt s') (setStream (run (pullAt s) (new 0 zero) ops).2 0) ops').1 = (reads s' start ops').map some ∧
    (run (pullAt s') (setStream (run (pullAt s) (new 0 zero) ops).2 0) ops').2.panicked = false ∧
    (run (pullAt s') (setStream (run (pullAt s) (new 0 zero) ops).2 0) ops').2.stream = (moves start ops').seen := by
  have h : setStream (run (pullAt s) (new 0 zero) ops).2 0 = new 0 (run (pullAt s) (new 0 zero) ops).2.saved := by
    have hp := (next_returns_element_at_cursor s zero ops).2
    generalize (run (pullAt s) (new 0 zero) ops).2 = a at hp ⊢
    simp [setStream, new, hp]
  rw [h]
  exact ⟨(next_returns_element_at_cursor s' _ ops').1, (next_returns_element_at_cursor s' _ ops').2, pulled_eq_seen s' _ ops'⟩

example : nextResults (run (pullAt (fun i => i + 7)) (setStream (run (pullAt (fun i => i * 10)) (new 0 0)
      [.next, .setCheckpoint, .next, .next, .rollback, .setCheckpoint]).2 0) [.setCheckpoint, .next, .next, .rollback, .next]).1 =
    [some 7, some 8, some 7] :=
  (reset_reads_afresh (fun i => i * 10) (fun i => i + 7) 0 _ _).1

/-- a history with nested checkpoints, a rollback into the buffer and a commit. -/
example :
    reads (fun i => i * 10) start
      [.next, .setCheckpoint, .next, .setCheckpoint, .next, .rollback, .next, .commit, .next, .rollback,
        .next] = [0, 10, 20, 20, 30, 40] := by decide

example :
    nextResults (run (pullAt (fun i => i * 10)) (new 0 0)
      [.next, .setCheckpoint, .next, .setCheckpoint, .next, .rollback, .next, .rollback, .next]).1
      = [some 0, some 10, some 20, some 20, some 10] := by decide

/-- **C02 (partial).** Rollback returns the element before the restored position, for every history in which
the last buffered element is never re-read outside of all checkpoints.

Missing: the restriction `NoBareDrain` cannot be dropped, see `rollback_value_stale`. -/
theorem rollback_returns_element_before_checkpoint_partial (s : Nat → α) (zero : α) (ops : List Op)
    (h : NoBareDrain start ops) :
    List.Forall₂ (fun want got => ∀ v, want = some v → got = some v)
      (restored s start ops) (rollbackResults (run (pullAt s) (new 0 zero) ops).1) :=
  run_restored ops (rel_new s zero) (savedOk_new s zero) h

example : NoBareDrain start
    [.next, .setCheckpoint, .next, .next, .rollback, .next, .setCheckpoint, .next, .rollback] := by
  simp [NoBareDrain, move, start]

/-- **C02 is false in general**: here `Rollback` has to return the element at position 2 but returns the one
at position 0 (`saved` is not updated when the buffer is drained without open checkpoints,
accessor.go:58-69). -/
theorem rollback_value_stale :
    ∃ ops : List Op,
      restored (fun i => i) start ops = [some 0, some 2] ∧
      rollbackResults (run (pullAt (fun i => i)) (new 0 0) ops).1 = [some 0, some 0] :=
  ⟨[.next, .setCheckpoint, .next, .next, .rollback, .next, .next, .setCheckpoint, .next, .rollback],
    by decide⟩

end Verif.Props.Accessor
