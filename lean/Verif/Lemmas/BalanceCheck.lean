import Verif.Model.BalanceCheck
import Verif.Spec.Nesting

set_option linter.unusedSectionVars false
set_option linter.unusedSimpArgs false

namespace Verif.BalanceCheck

open Verif.Spec.Nesting

variable {T : Type} [DecidableEq T]

/-- `cells` holds at least `len` cells. -/
def Inv (b : Checker T) : Prop := b.len ≤ b.cells.length

theorem openerOf_some {pairs : List (T × T)} {o c : T} (h : openerOf pairs o = some c) :
    (o, c) ∈ pairs := by
  simp only [openerOf, Option.map_eq_some_iff] at h
  obtain ⟨⟨a, b⟩, hf, rfl⟩ := h
  have h1 := List.find?_some hf
  have h2 := List.mem_of_find?_eq_some hf
  simp at h1 h2
  subst h1; exact h2

theorem openerOf_mem {pairs : List (T × T)} (hp : Proper pairs) {o c : T} (h : (o, c) ∈ pairs) :
    openerOf pairs o = some c := by
  cases ho : openerOf pairs o with
  | none =>
    simp only [openerOf, Option.map_eq_none_iff, List.find?_eq_none] at ho
    have := ho (o, c) (by simp [h])
    simp at this
  | some c' =>
    have := hp.functional _ (openerOf_some ho) _ h rfl
    simp at this; rw [this]

theorem isCloser_iff {pairs : List (T × T)} {c : T} :
    isCloser pairs c = true ↔ ∃ o, (o, c) ∈ pairs := by
  simp [isCloser]

theorem openerOf_none_of_closer {pairs : List (T × T)} (hp : Proper pairs) {o c : T}
    (h : (o, c) ∈ pairs) : openerOf pairs c = none := by
  cases ho : openerOf pairs c with
  | none => rfl
  | some c' => exact absurd rfl (hp.disjoint _ (openerOf_some ho) _ h)

theorem not_closer_of_opener {pairs : List (T × T)} (hp : Proper pairs) {o c : T}
    (h : (o, c) ∈ pairs) : isCloser pairs o = false := by
  cases hc : isCloser pairs o with
  | false => rfl
  | true =>
    obtain ⟨o', ho'⟩ := isCloser_iff.1 hc
    exact absurd rfl (hp.disjoint _ h _ ho')

/-- Pure stack machine: `none` once a closer does not match. The stack has its top first. -/
def stk (pairs : List (T × T)) : Option (List T) → T → Option (List T)
  | none, _ => none
  | some st, t =>
    if isCloser pairs t then
      match st with
      | [] => none
      | o :: st' => if openerOf pairs o = some t then some st' else none
    else if (openerOf pairs t).isSome then some (t :: st)
    else some st

def stks (pairs : List (T × T)) (s : Option (List T)) (w : List T) : Option (List T) :=
  w.foldl (stk pairs) s

@[simp] theorem stks_none (pairs : List (T × T)) (w : List T) : stks pairs none w = none := by
  induction w with
  | nil => rfl
  | cons t w ih => simpa [stks, stk] using ih

theorem stks_cons (pairs : List (T × T)) (s) (t : T) (w : List T) :
    stks pairs s (t :: w) = stks pairs (stk pairs s t) w := rfl

theorem stks_append (pairs : List (T × T)) (s) (w v : List T) :
    stks pairs s (w ++ v) = stks pairs (stks pairs s w) v := by simp [stks]

/-- Abstraction of a checker to the stack machine state. -/
def abs (b : Checker T) : Option (List T) := if b.bad then none else some b.stack.reverse

theorem getLast?_take_reverse (l : List T) : l.getLast? = l.reverse.head? := by simp

theorem add_abs {b : Checker T} (hp : Proper b.pairs) (hi : Inv b) (t : T) :
    abs (add b t).2 = stk b.pairs (abs b) t ∧ Inv (add b t).2 ∧ (add b t).2.pairs = b.pairs ∧
      (add b t).1 = (stk b.pairs (abs b) t).isSome := by
  unfold add
  by_cases hb : b.bad = true
  · simp [hb, abs, stk, hi]
  · have hb' : b.bad = false := by simpa using hb
    have habs : abs b = some b.stack.reverse := by simp [abs, hb']
    rw [habs]
    simp only [hb', Bool.false_eq_true, if_false]
    have hlen : b.stack.length = b.len := by
      simp [Checker.stack]; unfold Inv at hi; omega
    by_cases hc : isCloser b.pairs t = true
    · obtain ⟨o, ho⟩ := isCloser_iff.1 hc
      have hno := openerOf_none_of_closer hp ho
      simp only [hc, hno, stk, if_true]
      by_cases hpop : canPop b t = true
      · simp only [hpop]
        have hpop' := hpop
        unfold canPop at hpop'
        rw [getLast?_take_reverse] at hpop'
        cases hr : b.stack.reverse with
        | nil => simp [hr] at hpop'
        | cons top st' =>
          simp [hr] at hpop'
          simp only [hpop', if_true, abs]
          have hpos : 0 < b.len := by
            rw [← hlen, ← List.length_reverse, hr]; simp
          refine ⟨?_, ?_, ?_⟩
          · simp only [Option.isSome_none, Bool.not_false, Bool.and_true, Bool.not_true, Bool.and_false,
              Bool.false_eq_true, if_false, if_true, hb', Checker.stack]
            have : b.cells.take (b.len - 1) = b.stack.dropLast := by
              simp only [Checker.stack]
              rw [List.dropLast_eq_take, List.take_take, List.length_take]
              unfold Inv at hi
              congr 1; omega
            rw [this, ← List.tail_reverse, hr]; rfl
          · simp [Inv]; unfold Inv at hi; omega
          · simp
      · have hpop' : canPop b t = false := by simpa using hpop
        simp only [hpop']
        unfold canPop at hpop'
        rw [getLast?_take_reverse] at hpop'
        cases hr : b.stack.reverse with
        | nil => simp [abs]; exact hi
        | cons top st' =>
          simp [hr] at hpop'
          simp [hpop', abs]; exact hi
    · have hc' : isCloser b.pairs t = false := by simpa using hc
      simp only [hc', stk]
      by_cases ho : (openerOf b.pairs t).isSome = true
      · simp only [ho]
        refine ⟨?_, ?_, ?_⟩
        · simp only [Bool.false_and, Bool.false_eq_true, if_false, if_true, abs, pushCell, hb', Checker.stack]
          have : (b.cells.take b.len).length = b.len := hlen
          rw [List.take_append, this]
          simp [List.take_take]
        · simp [pushCell, Inv]; unfold Inv at hi; omega
        · simp [pushCell]
      · simp only [ho, Bool.false_and, Bool.false_eq_true, if_false]
        exact ⟨habs, hi, trivial, rfl⟩

theorem feed_abs (w : List T) : ∀ {b : Checker T}, Proper b.pairs → Inv b →
    abs (feed b w) = stks b.pairs (abs b) w ∧ Inv (feed b w) ∧ (feed b w).pairs = b.pairs := by
  induction w with
  | nil => intro b _ hi; exact ⟨rfl, hi, rfl⟩
  | cons t w ih =>
    intro b hp hi
    obtain ⟨h1, h2, h3, -⟩ := add_abs hp hi t
    have := ih (b := (add b t).2) (by rw [h3]; exact hp) h2
    simp only [feed, List.foldl_cons] at this ⊢
    rw [stks_cons, ← h1, ← h3]
    exact this

theorem isBalanced_abs {b : Checker T} (hi : Inv b) : isBalanced b = true ↔ abs b = some [] := by
  unfold isBalanced abs
  by_cases hb : b.bad = true
  · simp [hb]
  · have hb' : b.bad = false := by simpa using hb
    simp only [hb', Bool.not_false, Bool.true_and, beq_iff_eq, Bool.false_eq_true, if_false,
      Option.some.injEq, List.reverse_eq_nil_iff, Checker.stack]
    constructor
    · intro h; simp [h]
    · intro h
      have := congrArg List.length h
      rw [List.length_take] at this
      unfold Inv at hi
      simp at this
      rcases this with h | h
      · exact h
      · simp [h] at hi; exact hi

theorem abs_new (pairs : List (T × T)) : abs (new pairs) = some [] := by simp [abs, new, Checker.stack]

theorem inv_new (pairs : List (T × T)) : Inv (new pairs) := by simp [Inv, new]

/-- A nested word leaves the stack machine as it is. -/
theorem stks_nested {pairs : List (T × T)} (hp : Proper pairs) {w : List T} (h : Nested pairs w) :
    ∀ st, stks pairs (some st) w = some st := by
  induction h with
  | nil => intro st; rfl
  | other t w hne _ ih =>
    intro st
    rw [stks_cons]
    have hc : isCloser pairs t = false := by
      cases hc : isCloser pairs t with
      | false => rfl
      | true => obtain ⟨o, ho⟩ := isCloser_iff.1 hc; exact absurd rfl (hne _ ho).2
    have ho : openerOf pairs t = none := by
      cases ho : openerOf pairs t with
      | none => rfl
      | some c => exact absurd rfl (hne _ (openerOf_some ho)).1
    simp only [stk, hc, ho, Bool.false_eq_true, if_false, Option.isSome_none]
    exact ih st
  | pair o c w v hm _ _ ih1 ih2 =>
    intro st
    rw [List.cons_append, stks_cons]
    have hc := not_closer_of_opener hp hm
    have ho := openerOf_mem hp hm
    simp only [stk, hc, ho, Option.isSome_some, if_true, Bool.false_eq_true, if_false]
    rw [stks_append, ih1, stks_cons]
    simp only [stk, isCloser_iff.2 ⟨o, hm⟩, if_true, ho]
    exact ih2 st

theorem nested_append {pairs : List (T × T)} {w v : List T} (hw : Nested pairs w) (hv : Nested pairs v) :
    Nested pairs (w ++ v) := by
  induction hw with
  | nil => exact hv
  | other t w hne _ ih => exact .other t _ hne ih
  | pair o c w u hm h1 _ _ ih2 =>
    have := Nested.pair o c w (u ++ v) hm h1 ih2
    simpa using this

/-- `w` closes all of the stack: split at the closers of the stack. -/
def Decomp (pairs : List (T × T)) : List T → List T → Prop
  | [], w => Nested pairs w
  | o :: st, w => ∃ w0 c w1, w = w0 ++ c :: w1 ∧ (o, c) ∈ pairs ∧ Nested pairs w0 ∧ Decomp pairs st w1

theorem decomp_prepend {pairs : List (T × T)} {u : List T} (hu : Nested pairs u) {st w : List T}
    (h : Decomp pairs st w) : Decomp pairs st (u ++ w) := by
  cases st with
  | nil => exact nested_append hu h
  | cons o st =>
    obtain ⟨w0, c, w1, rfl, hm, h0, h1⟩ := h
    exact ⟨u ++ w0, c, w1, by simp, hm, nested_append hu h0, h1⟩

theorem decomp_of_stks {pairs : List (T × T)} (w : List T) : ∀ st,
    stks pairs (some st) w = some [] → Decomp pairs st w := by
  induction w with
  | nil =>
    intro st h
    simp [stks] at h
    subst h
    exact .nil
  | cons t w ih =>
    intro st h
    rw [stks_cons] at h
    by_cases hc : isCloser pairs t = true
    · simp only [stk, hc, if_true] at h
      cases st with
      | nil => simp at h
      | cons o st' =>
        simp only at h
        by_cases ho : openerOf pairs o = some t
        · simp only [ho, if_true] at h
          exact ⟨[], t, w, rfl, openerOf_some ho, .nil, ih st' h⟩
        · simp [ho] at h
    · have hc' : isCloser pairs t = false := by simpa using hc
      simp only [stk, hc', Bool.false_eq_true, if_false] at h
      cases ho : openerOf pairs t with
      | some c =>
        simp only [ho, Option.isSome_some, if_true] at h
        obtain ⟨w0, c', w1, rfl, hm, h0, h1⟩ := ih (t :: st) h
        have : Nested pairs (t :: w0 ++ c' :: []) := .pair t c' w0 [] hm h0 .nil
        have := decomp_prepend this h1
        simpa using this
      | none =>
        simp only [ho, Option.isSome_none, Bool.false_eq_true, if_false] at h
        have hn : Nested pairs [t] := by
          refine .other t [] ?_ .nil
          intro p hpm
          constructor
          · rintro rfl
            simp only [openerOf, Option.map_eq_none_iff, List.find?_eq_none] at ho
            have := ho p (by simp [hpm])
            simp at this
          · rintro rfl
            exact hc (isCloser_iff.2 ⟨p.1, hpm⟩)
        exact decomp_prepend hn (ih st h)

theorem stks_iff_nested {pairs : List (T × T)} (hp : Proper pairs) (w : List T) :
    stks pairs (some []) w = some [] ↔ Nested pairs w :=
  ⟨decomp_of_stks w [], fun h => stks_nested hp h []⟩

/-- Elements pushed by the stack machine are openers. -/
theorem stks_openers {pairs : List (T × T)} (w : List T) : ∀ st st', (∀ o ∈ st, ∃ c, (o, c) ∈ pairs) →
    stks pairs (some st) w = some st' → ∀ o ∈ st', ∃ c, (o, c) ∈ pairs := by
  induction w with
  | nil => intro st st' hs h; simp [stks] at h; subst h; exact hs
  | cons t w ih =>
    intro st st' hs h
    rw [stks_cons] at h
    cases hk : stk pairs (some st) t with
    | none => simp [hk] at h
    | some st1 =>
      rw [hk] at h
      refine ih st1 st' ?_ h
      simp only [stk] at hk
      split at hk
      · cases st with
        | nil => simp at hk
        | cons o st'' =>
          simp only at hk
          split at hk
          · simp at hk; subst hk
            intro o' ho'; exact hs o' (by simp [ho'])
          · simp at hk
      · split at hk
        · rename_i ho
          simp at hk; subst hk
          intro o' ho'
          simp only [List.mem_cons] at ho'
          rcases ho' with rfl | ho'
          · obtain ⟨c, hc⟩ := Option.isSome_iff_exists.1 ho
            exact ⟨c, openerOf_some hc⟩
          · exact hs o' ho'
        · simp at hk; subst hk; exact hs

/-- A stack of openers can be closed. -/
theorem stks_close {pairs : List (T × T)} (hp : Proper pairs) (st : List T)
    (hs : ∀ o ∈ st, ∃ c, (o, c) ∈ pairs) : ∃ v, stks pairs (some st) v = some [] := by
  induction st with
  | nil => exact ⟨[], rfl⟩
  | cons o st ih =>
    obtain ⟨c, hc⟩ := hs o (by simp)
    obtain ⟨v, hv⟩ := ih (fun o' ho' => hs o' (by simp [ho']))
    refine ⟨c :: v, ?_⟩
    rw [stks_cons]
    simp only [stk, isCloser_iff.2 ⟨o, hc⟩, if_true, openerOf_mem hp hc]
    exact hv

theorem stks_some_iff_extends {pairs : List (T × T)} (hp : Proper pairs) (w : List T) :
    (stks pairs (some []) w).isSome ↔ ∃ v, Nested pairs (w ++ v) := by
  constructor
  · intro h
    obtain ⟨st, hst⟩ := Option.isSome_iff_exists.1 h
    obtain ⟨v, hv⟩ := stks_close hp st (stks_openers w [] st (by simp) hst)
    exact ⟨v, (stks_iff_nested hp _).1 (by rw [stks_append, hst, hv])⟩
  · rintro ⟨v, hv⟩
    have := (stks_iff_nested hp _).2 hv
    rw [stks_append] at this
    cases h : stks pairs (some []) w with
    | none => simp [h] at this
    | some _ => rfl

/-- Two checkers which cannot be told apart. -/
theorem abs_eq_obs {b1 b2 : Checker T} (h : abs b1 = abs b2) (hp : b1.pairs = b2.pairs)
    (hpr : Proper b1.pairs) (h1 : Inv b1) (h2 : Inv b2) (x : List T) :
    isBalanced (feed b1 x) = isBalanced (feed b2 x) ∧
      (feed b1 x).bad = (feed b2 x).bad := by
  obtain ⟨a1, i1, -⟩ := feed_abs x hpr h1
  obtain ⟨a2, i2, -⟩ := feed_abs x (hp ▸ hpr) h2
  have heq : abs (feed b1 x) = abs (feed b2 x) := by rw [a1, a2, h, hp]
  constructor
  · rw [Bool.eq_iff_iff, isBalanced_abs i1, isBalanced_abs i2, heq]
  · unfold abs at heq
    by_cases c1 : (feed b1 x).bad = true <;> by_cases c2 : (feed b2 x).bad = true <;> simp_all

theorem stks_frame {pairs : List (T × T)} (w : List T) : ∀ st st' rest,
    stks pairs (some st) w = some st' → stks pairs (some (st ++ rest)) w = some (st' ++ rest) := by
  induction w with
  | nil => intro st st' rest h; simp [stks] at h ⊢; rw [h]
  | cons t w ih =>
    intro st st' rest h
    rw [stks_cons] at h ⊢
    cases hk : stk pairs (some st) t with
    | none => simp [hk] at h
    | some st1 =>
      rw [hk] at h
      have : stk pairs (some (st ++ rest)) t = some (st1 ++ rest) := by
        simp only [stk] at hk ⊢
        split at hk
        · rename_i hc
          simp only [hc, if_true]
          cases st with
          | nil => simp at hk
          | cons o st'' =>
            simp only [List.cons_append] at hk ⊢
            split at hk
            · rename_i ho
              simp at hk; subst hk
              simp [ho]
            · simp at hk
        · rename_i hc
          simp only [hc]
          split at hk
          · rename_i ho
            simp at hk; subst hk
            simp [ho]
          · rename_i ho
            simp at hk; subst hk
            simp [ho]
      rw [this]
      exact ih st1 st' rest h

theorem feed_bad (w : List T) : ∀ {b : Checker T}, b.bad = true → feed b w = b := by
  induction w with
  | nil => intro b _; rfl
  | cons t w ih =>
    intro b hb
    have : (add b t).2 = b := by simp [add, hb]
    simp only [feed, List.foldl_cons, this]
    exact ih hb

theorem setMemento_self {b : Checker T} (hi : Inv b) : setMemento b (memento b) = b := by
  unfold Inv at hi
  cases b
  simp [setMemento, memento] at hi ⊢
  omega

theorem abs_restore {b : Checker T} (hp : Proper b.pairs) (hi : Inv b) (u : List T)
    (hu : b.bad = true ∨ ∃ v, Nested b.pairs (u ++ v)) :
    abs (setMemento (feed b u) (memento b)) = abs b ∧ Inv (setMemento (feed b u) (memento b)) ∧
      (setMemento (feed b u) (memento b)).pairs = b.pairs := by
  by_cases hb : b.bad = true
  · rw [feed_bad u hb, setMemento_self hi]; exact ⟨rfl, hi, rfl⟩
  · have hb' : b.bad = false := by simpa using hb
    have hu' : ∃ v, Nested b.pairs (u ++ v) := by
      rcases hu with h | h
      · exact absurd h hb
      · exact h
    obtain ⟨ha, hi', hp'⟩ := feed_abs u hp hi
    obtain ⟨st, hst⟩ := Option.isSome_iff_exists.1 ((stks_some_iff_extends hp u).2 hu')
    have hfr := stks_frame u [] st b.stack.reverse hst
    have habs : abs b = some b.stack.reverse := by simp [abs, hb']
    rw [habs] at ha
    simp only [List.nil_append] at hfr
    rw [hfr] at ha
    have hnb : (feed b u).bad = false := by
      cases hc : (feed b u).bad with
      | false => rfl
      | true => simp [abs, hc] at ha
    simp only [abs, hnb, Bool.false_eq_true, if_false, Option.some.injEq] at ha
    have hs : (feed b u).stack = b.stack ++ st.reverse := by
      have := congrArg List.reverse ha
      simpa using this
    have hlen : b.stack.length = b.len := by
      simp [Checker.stack]; unfold Inv at hi; omega
    have hlen' : (feed b u).stack.length = (feed b u).len := by
      simp [Checker.stack]; unfold Inv at hi'; omega
    have hle : b.len ≤ (feed b u).len := by
      rw [← hlen', hs, List.length_append, hlen]; omega
    unfold Inv at hi'
    have hcells : (feed b u).cells.take b.len = b.stack := by
      have : (feed b u).cells.take b.len = (feed b u).stack.take b.len := by
        simp only [Checker.stack, List.take_take]
        congr 1; omega
      rw [this, hs, ← hlen, List.take_left]
    refine ⟨?_, ?_, hp'⟩
    · rw [habs]
      simp only [abs, setMemento, memento, hb', Bool.false_eq_true, if_false, Checker.stack]
      rw [show min b.len (feed b u).cells.length = b.len by omega, hcells]; rfl
    · simp only [Inv, setMemento, memento]; omega

end Verif.BalanceCheck
