import Mathlib.Data.List.Forall2
import Verif.Spec.Cursor

/-! Simulation between the accessor and the cursor. -/

namespace Verif.CPAccessor

open Verif.Spec.Cursor

variable {α : Type}

/-- The stream `s` read by index. -/
def pullAt (s : Nat → α) (i : Nat) : α × Nat := (s i, i + 1)

/-- `base + k` for the stored checkpoint value (`none` is `-1`). -/
def cpPos (base : Nat) : Option Nat → Nat
  | none => base
  | some j => base + j + 1

/-- Simulation relation. -/
structure Rel (s : Nat → α) (a : Accessor Nat α) (c : Cursor) : Prop where
  np : a.panicked = false
  seen : a.stream = c.seen
  buf : ∃ base, base + a.buf.length = a.stream ∧
    (∀ i, i < a.buf.length → a.buf[i]? = some (s (base + i))) ∧
    (match a.ind with
      | none => c.pos = a.stream
      | some i => i < a.buf.length ∧ c.pos = base + i) ∧
    c.cps = a.stack.map (cpPos base) ∧
    (∀ j, some j ∈ a.stack → j < a.buf.length)
  fresh : a.stack = [] → a.ind = none → a.buf = []
  bottom : ∀ j, a.stack.getLast? = some (some j) → j + 1 < a.buf.length

/-- `saved` is the element before the buffer. -/
def SavedOk (s : Nat → α) (a : Accessor Nat α) : Prop :=
  ∀ k, a.stream = k + 1 + a.buf.length → a.saved = s k

theorem rel_new (s : Nat → α) (z : α) : Rel s (new 0 z) start := by
  refine ⟨rfl, rfl, ⟨0, ?_⟩, ?_, ?_⟩ <;> simp [new, start]

theorem pos_le_seen {s : Nat → α} {a : Accessor Nat α} {c : Cursor} (h : Rel s a c) :
    c.pos ≤ c.seen := by
  obtain ⟨base, hb, -, hi, -, -⟩ := h.buf
  rw [← h.seen]
  cases hind : a.ind with
  | none => simp [hind] at hi; omega
  | some i => simp [hind] at hi; omega

theorem rel_next {s : Nat → α} {a : Accessor Nat α} {c : Cursor} (h : Rel s a c) :
    (next (pullAt s) a).1 = s c.pos ∧ Rel s (next (pullAt s) a).2 (move c .next) := by
  obtain ⟨base, hb, hbuf, hi, hst, hj⟩ := h.buf
  have hseen := h.seen
  cases hind : a.ind with
  | none =>
    simp only [hind] at hi
    by_cases hs : a.stack = []
    · have hbe := h.fresh hs hind
      simp only [next, hind, pullAt, hs]
      refine ⟨by simp [hi], ⟨h.np, ?_, ⟨a.stream + 1, ?_⟩, ?_, ?_⟩⟩
      · simp [move]; omega
      · simp only [hbe, hs, move, hst]
        simp; omega
      · intro _ _; exact hbe
      · simp
    · have hl : a.stack.length > 0 := by
        cases hst' : a.stack with
        | nil => exact absurd hst' hs
        | cons _ _ => simp
      simp only [next, hind, pullAt, if_pos hl]
      refine ⟨by simp [hi], ⟨h.np, ?_, ⟨base, ?_⟩, ?_, ?_⟩⟩
      · simp [move]; omega
      · refine ⟨by simp; omega, ?_, by simp [move]; omega, by simpa [move] using hst, ?_⟩
        · intro i hil
          simp only [List.length_append, List.length_cons, List.length_nil] at hil
          by_cases hlt : i < a.buf.length
          · rw [List.getElem?_append_left hlt]; exact hbuf i hlt
          · have : i = a.buf.length := by omega
            subst this
            simp; congr 1; omega
        · intro j hjm
          have := hj j hjm
          simp; omega
      · intro h1 _; exact absurd h1 hs
      · intro j hl'
        have := h.bottom j hl'
        simp; omega
  | some i =>
    simp only [hind] at hi
    obtain ⟨hil, hpos⟩ := hi
    have hv := hbuf i hil
    simp only [next, hind, hv]
    by_cases hend : i + 1 = a.buf.length
    · simp only [if_pos hend]
      by_cases hs : a.stack = []
      · simp only [hs, List.length_nil, if_true]
        refine ⟨by rw [hpos], ⟨h.np, ?_, ⟨a.stream, ?_⟩, ?_, ?_⟩⟩
        · simp [move]; omega
        · simp only [hst, hs, move]; simp; omega
        · intro _ _; rfl
        · simp
      · have hl : ¬ a.stack.length = 0 := by simpa using hs
        simp only [if_neg hl]
        refine ⟨by rw [hpos], ⟨h.np, ?_, ⟨base, hb, hbuf, ?_, ?_, hj⟩, ?_, h.bottom⟩⟩
        · simp [move]; omega
        · simp [move]; omega
        · simpa [move] using hst
        · intro h1; exact absurd h1 hs
    · simp only [if_neg hend]
      refine ⟨by rw [hpos], ⟨h.np, ?_, ⟨base, hb, hbuf, ?_, ?_, hj⟩, ?_, h.bottom⟩⟩
      · simp [move]; omega
      · simp [move]; omega
      · simpa [move] using hst
      · intro _ h2; simp at h2

theorem cpPos_predIdx (base k : Nat) : cpPos base (predIdx k) = base + k := by
  cases k <;> simp [cpPos, predIdx]; omega

theorem predIdx_lt {k j n : Nat} (h : predIdx k = some j) (hk : k ≤ n) : j < n := by
  cases k <;> simp [predIdx] at h; omega

theorem rel_setCheckpoint {s : Nat → α} {a : Accessor Nat α} {c : Cursor} (h : Rel s a c) :
    Rel s (setCheckpoint a) (move c .setCheckpoint) := by
  obtain ⟨base, hb, hbuf, hi, hst, hj⟩ := h.buf
  have hseen := h.seen
  cases hind : a.ind with
  | none =>
    simp only [hind] at hi
    simp only [setCheckpoint, hind, move]
    refine ⟨h.np, hseen, ⟨base, hb, hbuf, ?_, ?_, ?_⟩, ?_, ?_⟩
    · simp; exact hi
    · simp [cpPos_predIdx, hst]; omega
    · intro j hm
      simp only [List.mem_cons] at hm
      rcases hm with hm | hm
      · exact predIdx_lt hm.symm (Nat.le_refl _)
      · exact hj j hm
    · intro h1; simp at h1
    · intro j hl
      cases hs : a.stack with
      | nil =>
        have := h.fresh hs hind
        simp [hs, this, predIdx] at hl
      | cons x xs =>
        simp only [hs, List.getLast?_cons_cons] at hl
        exact h.bottom j (by rw [hs]; exact hl)
  | some i =>
    simp only [hind] at hi
    simp only [setCheckpoint, hind, move]
    refine ⟨h.np, hseen, ⟨base, hb, hbuf, ?_, ?_, ?_⟩, ?_, ?_⟩
    · simp; exact hi
    · simp [cpPos_predIdx, hst]; omega
    · intro j hm
      simp only [List.mem_cons] at hm
      rcases hm with hm | hm
      · exact predIdx_lt hm.symm (Nat.le_of_lt hi.1)
      · exact hj j hm
    · intro h1; simp at h1
    · intro j hl
      cases hs : a.stack with
      | nil =>
        simp only [hs, List.getLast?_singleton, Option.some.injEq] at hl
        have := hi.1
        cases i <;> simp [predIdx] at hl
        simp; omega
      | cons x xs =>
        simp only [hs, List.getLast?_cons_cons] at hl
        exact h.bottom j (by rw [hs]; exact hl)

theorem rel_rollback {s : Nat → α} {a : Accessor Nat α} {c : Cursor} (h : Rel s a c) :
    Rel s (rollback a).2 (move c .rollback) := by
  obtain ⟨base, hb, hbuf, hi, hst, hj⟩ := h.buf
  have hseen := h.seen
  have hbot : ∀ x rest j, a.stack = x :: rest → rest.getLast? = some (some j) →
      j + 1 < a.buf.length := by
    intro x rest j hs hl
    apply h.bottom j
    rw [hs]
    cases rest with
    | nil => simp at hl
    | cons y ys => rw [List.getLast?_cons_cons]; exact hl
  unfold rollback
  split
  · rename_i hs
    simp only [move, hst, hs, List.map_nil]; exact h
  · rename_i rest hs
    simp only [hs, List.map_cons, cpPos] at hst
    have hj' : ∀ j, some j ∈ rest → j < a.buf.length := fun j hm => hj j (by simp [hs, hm])
    split
    · rename_i hpos
      refine ⟨h.np, ?_, ⟨base, hb, hbuf, ?_, ?_, hj'⟩, ?_, fun j => hbot _ _ j hs⟩
      · simp [move, hst, hseen]
      · simp [move, hst]; omega
      · simp [move, hst]
      · intro _ h2; simp at h2
    · rename_i hneg
      have hbe : a.buf = [] := by cases hbb : a.buf <;> simp_all
      refine ⟨h.np, ?_, ⟨base, hb, hbuf, ?_, ?_, hj'⟩, ?_, fun j => hbot _ _ j hs⟩
      · simp [move, hst, hseen]
      · simp [move, hst]; simp [hbe] at hb; omega
      · simp [move, hst]
      · intro _ _; exact hbe
  · rename_i j rest hs
    simp only [hs, List.map_cons, cpPos] at hst
    have hjl : j < a.buf.length := hj j (by simp [hs])
    have hj' : ∀ j, some j ∈ rest → j < a.buf.length := fun j hm => hj j (by simp [hs, hm])
    simp only [hbuf j hjl]
    split
    · rename_i hend
      refine ⟨h.np, ?_, ⟨base, hb, hbuf, ?_, ?_, hj'⟩, ?_, fun j => hbot _ _ j hs⟩
      · simp [move, hst, hseen]
      · simp [move, hst]; omega
      · simp [move, hst]
      · intro hr _
        have := h.bottom j (by simp [hs, show rest = [] from hr])
        omega
    · rename_i hend
      refine ⟨h.np, ?_, ⟨base, hb, hbuf, ?_, ?_, hj'⟩, ?_, fun j => hbot _ _ j hs⟩
      · simp [move, hst, hseen]
      · simp [move, hst]; omega
      · simp [move, hst]
      · intro _ h2; simp at h2

theorem rel_commit {s : Nat → α} {a : Accessor Nat α} {c : Cursor} (h : Rel s a c) :
    Rel s (commit a) (move c .commit) := by
  obtain ⟨base, hb, hbuf, hi, hst, hj⟩ := h.buf
  have hseen := h.seen
  unfold commit
  split
  · rename_i hs
    simp only [move, hst, hs, List.map_nil, List.tail_nil]
    have : c = { c with cps := [] } := by
      cases c; simp_all
    rw [← this]; exact h
  · rename_i x hs
    have hc : (move c .commit) = { c with cps := [] } := by simp [move, hst, hs]
    rw [hc]
    split
    · rename_i v hind hl
      simp only [hind] at hi
      refine ⟨h.np, hseen, ⟨a.stream, ?_⟩, ?_, ?_⟩
      · simp [hi, hind]
      · intro _ _; rfl
      · simp
    · rename_i hx
      refine ⟨h.np, hseen, ⟨base, hb, hbuf, hi, by simp, by simp⟩, ?_, by simp⟩
      intro _ hn
      cases hl : a.buf.getLast? with
      | none => simpa using hl
      | some v => exact absurd hl (hx v hn)
  · rename_i x rest hne hs
    simp only [hs, List.map_cons] at hst
    refine ⟨h.np, ?_, ⟨base, hb, hbuf, ?_, ?_, ?_⟩, ?_, ?_⟩
    · simp [move, hseen]
    · simpa [move] using hi
    · simp [move, hst]
    · intro j hm; exact hj j (by simp [hs, hm])
    · intro hr; subst hr; exact absurd rfl hne
    · intro j hl
      apply h.bottom j
      rw [hs]
      cases rest with
      | nil => simp at hl
      | cons y ys => rw [List.getLast?_cons_cons]; exact hl

/-- Results of the `Next` calls in a trace. -/
def nextResults : List (Op × Option α) → List (Option α)
  | [] => []
  | (.next, r) :: t => r :: nextResults t
  | _ :: t => nextResults t

/-- Results of the `Rollback` calls in a trace. -/
def rollbackResults : List (Op × Option α) → List (Option α)
  | [] => []
  | (.rollback, r) :: t => r :: rollbackResults t
  | _ :: t => rollbackResults t

theorem rel_step {s : Nat → α} {a : Accessor Nat α} {c : Cursor} (h : Rel s a c) (op : Op) :
    Rel s (step (pullAt s) a op).2 (move c op) := by
  cases op with
  | next => exact (rel_next h).2
  | setCheckpoint => exact rel_setCheckpoint h
  | rollback => exact rel_rollback h
  | commit => exact rel_commit h

theorem rel_run {s : Nat → α} (ops : List Op) : ∀ {a : Accessor Nat α} {c : Cursor}, Rel s a c →
    Rel s (run (pullAt s) a ops).2 (moves c ops) := by
  induction ops with
  | nil => intro a c h; exact h
  | cons op ops ih => intro a c h; exact ih (rel_step h op)

theorem run_reads {s : Nat → α} (ops : List Op) : ∀ {a : Accessor Nat α} {c : Cursor}, Rel s a c →
    nextResults (run (pullAt s) a ops).1 = (reads s c ops).map some := by
  induction ops with
  | nil => intro a c _; rfl
  | cons op ops ih =>
    intro a c h
    have ih' := ih (rel_step h op)
    cases op with
    | next =>
      simp only [run, nextResults, reads, List.map_cons]
      rw [ih']
      simp only [step]
      rw [(rel_next h).1]
    | setCheckpoint => simpa only [run, nextResults, reads] using ih'
    | rollback => simpa only [run, nextResults, reads] using ih'
    | commit => simpa only [run, nextResults, reads] using ih'

theorem savedOk_new (s : Nat → α) (z : α) : SavedOk s (new 0 z) := by
  intro k hk; simp [new] at hk

theorem savedOk_step {s : Nat → α} {a : Accessor Nat α} {c : Cursor} (h : Rel s a c)
    (hs : SavedOk s a) (op : Op) (hd : ¬ (op = .next ∧ c.cps = [] ∧ c.pos + 1 = c.seen)) :
    SavedOk s (step (pullAt s) a op).2 := by
  obtain ⟨base, hb, hbuf, hi, hst, hj⟩ := h.buf
  have hseen := h.seen
  cases op with
  | next =>
    simp only [true_and] at hd
    simp only [step]
    cases hind : a.ind with
    | none =>
      simp only [hind] at hi
      simp only [next, hind, pullAt]
      split
      · intro k hk
        apply hs k
        simp at hk; omega
      · rename_i hl
        have he : a.stack = [] := by simpa using hl
        have hbe := h.fresh he hind
        intro k hk
        simp [hbe] at hk
        simp [hk]
    | some i =>
      simp only [hind] at hi
      simp only [next, hind, hbuf i hi.1]
      split
      · split
        · rename_i hend hl
          exfalso
          apply hd
          constructor
          · simp [hst, List.eq_nil_of_length_eq_zero hl]
          · omega
        · exact hs
      · exact hs
  | setCheckpoint =>
    simp only [step, setCheckpoint]
    cases hind : a.ind <;> exact hs
  | rollback =>
    simp only [step, rollback]
    split
    · exact hs
    · split <;> exact hs
    · split
      · exact hs
      · split <;> exact hs
  | commit =>
    simp only [step, commit]
    split
    · exact hs
    · split
      · rename_i v hind hl
        intro k hk
        simp at hk
        have hlen : 0 < a.buf.length := by
          cases hbb : a.buf <;> simp_all
        rw [List.getLast?_eq_getElem?, hbuf _ (by omega)] at hl
        simp only [Option.some.injEq] at hl
        rw [← hl]
        show s _ = s k
        congr 1
        omega
      · exact hs
    · exact hs

/-- The element returned by a rollback is the one before the restored position. -/
theorem rollback_val {s : Nat → α} {a : Accessor Nat α} {c : Cursor} (h : Rel s a c)
    (hs : SavedOk s a) {p : Nat} {ps : List Nat} (hc : c.cps = (p + 1) :: ps) :
    (rollback a).1 = s p := by
  obtain ⟨base, hb, hbuf, hi, hst, hj⟩ := h.buf
  rw [hc] at hst
  unfold rollback
  split
  · rename_i he; simp [he] at hst
  · rename_i rest he
    simp only [he, List.map_cons, cpPos, List.cons.injEq] at hst
    have : a.saved = s p := hs p (by omega)
    split <;> exact this
  · rename_i j rest he
    simp only [he, List.map_cons, cpPos, List.cons.injEq] at hst
    have hjl := hj j (by simp [he])
    simp only [hbuf j hjl]
    have : p = base + j := by omega
    subst this
    split <;> rfl

theorem run_restored {s : Nat → α} (ops : List Op) : ∀ {a : Accessor Nat α} {c : Cursor}, Rel s a c →
    SavedOk s a → NoBareDrain c ops →
    List.Forall₂ (fun want got => ∀ v, want = some v → got = some v)
      (restored s c ops) (rollbackResults (run (pullAt s) a ops).1) := by
  induction ops with
  | nil => intro a c _ _ _; exact .nil
  | cons op ops ih =>
    intro a c h hs hd
    have ih' := ih (rel_step h op) (savedOk_step h hs op hd.1) hd.2
    cases op with
    | rollback =>
      simp only [run, rollbackResults, restored]
      refine .cons ?_ ih'
      intro v hv
      simp only [step]
      split at hv
      · rename_i p ps hc
        simp only [Option.some.injEq] at hv
        rw [← hv, rollback_val h hs hc]
      · simp at hv
    | setCheckpoint => simpa only [run, rollbackResults, restored] using ih'
    | next => simpa only [run, rollbackResults, restored] using ih'
    | commit => simpa only [run, rollbackResults, restored] using ih'

end Verif.CPAccessor
