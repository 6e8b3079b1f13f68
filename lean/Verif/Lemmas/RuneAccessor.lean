import Verif.Lemmas.CPAccessor
import Verif.Model.Lexer

/-! The rune accessor of the tokenizer against the list of remaining runes. -/

namespace Verif.Lexer

open Verif.CPAccessor Verif.Spec.Cursor

/-- The accessor with another representation of the stream state. -/
def mapStream {σ τ α : Type} (f : σ → τ) (a : Accessor σ α) : Accessor τ α :=
  { stream := f a.stream, buf := a.buf, saved := a.saved, ind := a.ind, stack := a.stack, panicked := a.panicked }

variable {σ α : Type}

theorem next_map (pull : σ → α × σ) (s : Nat → α) (f : Nat → σ) (hf : ∀ i, pull (f i) = (s i, f (i + 1)))
    (a : Accessor Nat α) :
    next pull (mapStream f a) = ((next (pullAt s) a).1, mapStream f (next (pullAt s) a).2) := by
  cases a with
  | mk stream buf saved ind stack panicked =>
    cases ind with
    | none =>
      simp only [next, mapStream, hf, pullAt]
      split <;> rfl
    | some i =>
      simp only [next, mapStream]
      split
      · rfl
      · by_cases h1 : i + 1 = buf.length <;> by_cases h2 : stack.length = 0 <;> simp [h1, h2]

theorem setCheckpoint_map (f : Nat → σ) (a : Accessor Nat α) :
    setCheckpoint (mapStream f a) = mapStream f (setCheckpoint a) := by
  cases a with
  | mk stream buf saved ind stack panicked => cases ind <;> rfl

theorem rollback_map (f : Nat → σ) (a : Accessor Nat α) :
    rollback (mapStream f a) = ((rollback a).1, mapStream f (rollback a).2) := by
  cases a with
  | mk stream buf saved ind stack panicked =>
    simp only [rollback, mapStream]
    split
    · rfl
    · by_cases h1 : buf.length > 0 <;> simp [h1]
    · split
      · rfl
      · rename_i j rest _ val _
        by_cases h1 : j + 1 = buf.length <;> simp [h1]

/-- `count` times `t.ra.Next()` (tokenizer.go:129-131), on the accessor. -/
def accNexts (pull : σ → α × σ) : Nat → Accessor σ α → List α × Accessor σ α
  | 0, a => ([], a)
  | n + 1, a =>
    let (v, a') := next pull a
    let (vs, a'') := accNexts pull n a'
    (v :: vs, a'')

/-- tokenizer.go:127-136 `lookahead`, on the accessor: the runes handed to the predicate. -/
def accLookahead (pull : σ → α × σ) (n : Nat) (a : Accessor σ α) : List α × Accessor σ α :=
  let (vs, a') := accNexts pull n (setCheckpoint a)
  (vs, (rollback a').2)

theorem accNexts_map (pull : σ → α × σ) (s : Nat → α) (f : Nat → σ) (hf : ∀ i, pull (f i) = (s i, f (i + 1)))
    (n : Nat) : ∀ a : Accessor Nat α,
    accNexts pull n (mapStream f a) = ((accNexts (pullAt s) n a).1, mapStream f (accNexts (pullAt s) n a).2) := by
  induction n with
  | zero => intro a; rfl
  | succ n ih =>
    intro a
    simp only [accNexts, next_map pull s f hf, ih]

theorem rel_accNexts (s : Nat → α) (n : Nat) : ∀ (a : Accessor Nat α) (c : Cursor), Rel s a c →
    (accNexts (pullAt s) n a).1 = (List.range n).map (fun k => s (c.pos + k)) ∧
    ∃ c', Rel s (accNexts (pullAt s) n a).2 c' ∧ c'.cps = c.cps := by
  induction n with
  | zero => intro a c h; exact ⟨rfl, c, h, rfl⟩
  | succ n ih =>
    intro a c h
    obtain ⟨hv, hr⟩ := rel_next h
    obtain ⟨h1, c', h2, h3⟩ := ih _ _ hr
    simp only [accNexts]
    refine ⟨?_, c', h2, h3⟩
    rw [hv, h1, List.range_succ_eq_map]
    simp only [List.map_cons, List.map_map, Nat.add_zero, List.cons.injEq, true_and]
    apply List.map_congr_left
    intro k _
    simp only [move, Function.comp]
    congr 1
    omega

theorem pull_drop (src : List Char) (i : Nat) : raNext (src.drop i) = (src[i]?, src.drop (i + 1)) := by
  by_cases h : i < src.length
  · rw [List.drop_eq_getElem_cons h]
    simp [raNext, h]
  · have h1 : src.drop i = [] := List.drop_eq_nil_of_le (by omega)
    have h2 : src.drop (i + 1) = [] := List.drop_eq_nil_of_le (by omega)
    rw [h1, h2, List.getElem?_eq_none (by omega)]
    rfl

theorem lookahead_drop (src : List Char) (n : Nat) : ∀ i,
    lookahead n (src.drop i) = (List.range n).map (fun k => src[i + k]?) := by
  induction n with
  | zero => intro i; rfl
  | succ n ih =>
    intro i
    simp only [lookahead, pull_drop, ih, List.range_succ_eq_map, List.map_cons, Nat.add_zero, List.map_map,
      List.cons.injEq, true_and]
    apply List.map_congr_left
    intro k _
    simp only [Function.comp]
    congr 1
    omega

/-- The accessor represents the remaining runes. -/
def Represents (src : List Char) (a : Accessor (List Char) (Option Char)) (rest : List Char) : Prop :=
  ∃ (a0 : Accessor Nat (Option Char)) (c : Cursor), Rel (fun i => src[i]?) a0 c ∧ c.cps = [] ∧
    a = mapStream src.drop a0 ∧ rest = src.drop c.pos

theorem represents_new (src : List Char) (zero : Option Char) : Represents src (new src zero) src :=
  ⟨new 0 zero, start, rel_new _ _, rfl, rfl, rfl⟩

theorem represents_next {src : List Char} {a : Accessor (List Char) (Option Char)} {rest : List Char}
    (h : Represents src a rest) :
    (next raNext a).1 = (raNext rest).1 ∧ Represents src (next raNext a).2 (raNext rest).2 := by
  obtain ⟨a0, c, hrel, hcps, rfl, rfl⟩ := h
  obtain ⟨hv, hr⟩ := rel_next hrel
  rw [next_map raNext (fun i => src[i]?) src.drop (pull_drop src), pull_drop]
  refine ⟨hv, _, _, hr, ?_, rfl, rfl⟩
  simpa [move] using hcps

theorem represents_lookahead {src : List Char} {a : Accessor (List Char) (Option Char)} {rest : List Char}
    (h : Represents src a rest) (n : Nat) :
    (accLookahead raNext n a).1 = lookahead n rest ∧ Represents src (accLookahead raNext n a).2 rest := by
  obtain ⟨a0, c, hrel, hcps, rfl, rfl⟩ := h
  have h1 := rel_setCheckpoint hrel
  obtain ⟨h2, c', h3, h4⟩ := rel_accNexts _ n _ _ h1
  simp only [accLookahead, setCheckpoint_map, accNexts_map raNext (fun i => src[i]?) src.drop (pull_drop src),
    rollback_map]
  refine ⟨?_, _, _, rel_rollback h3, ?_, rfl, ?_⟩
  · rw [h2, lookahead_drop]
    rfl
  · simp only [move] at h4 ⊢
    rw [h4]; exact hcps
  · simp only [move] at h4 ⊢
    rw [h4]

end Verif.Lexer
