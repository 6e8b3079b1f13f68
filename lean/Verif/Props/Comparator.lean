import Verif.Lemmas.Comparator
import Verif.Lemmas.Krfl

/-!
C32 and C33: the tree comparison.
-/

set_option linter.unusedSimpArgs false

namespace Verif.Props.Comparator

open Verif.Ast Verif.Comparator Verif.TreeEq

/-- `n` steps of some schedule lead from one state to another. -/
inductive Steps : Nat → Sys → Sys → Prop
  | zero {s} : Steps 0 s s
  | succ {n s t u} : Steps n s t → Step t u → Steps (n + 1) s u

/-- Some schedule ends, both walking goroutines being stopped, with this answer. -/
def Answers (a b : Node) (r : Bool) : Prop := ∃ n, Steps n (start a b) (.live .closed .closed (.done r))

/-! ### helpers -/

theorem steps_good {la lb n s s'} (h : Steps n s s') (hg : Good la lb s) : Good la lb s' := by
  induction h with
  | zero => exact hg
  | succ _ h ih => exact good_step h (ih hg)

theorem steps_safe {n s s'} (h : Steps n s s') (hg : s.Safe) : s'.Safe := by
  induction h with
  | zero => exact hg
  | succ _ h ih => exact safe_step h (ih hg)

theorem steps_doomed {n s s'} (h : Steps n s s') (hg : s.Doomed) : s'.Doomed := by
  induction h with
  | zero => exact hg
  | succ _ h ih => exact doomed_step h (ih hg)

theorem steps_size {n s s'} (h : Steps n s s') : s'.size + n ≤ s.size := by
  induction h with
  | zero => simp
  | succ _ h ih => have := step_size h; omega

theorem start_live {a b : Node} (ha : a ≠ .nil) (hb : b ≠ .nil) :
    start a b = .live (.running [.must a]) (.running [.must b]) .recvFirst := by
  unfold start
  split
  · exact absurd rfl ha
  · exact absurd rfl ha
  · exact absurd rfl hb
  · rfl

/-- The answer, by the labels. -/
noncomputable def ans (a b : Node) : Bool :=
  match a, b with
  | .nil, .nil => true
  | .nil, _ => false
  | _, .nil => false
  | a, b => decide (labels a = labels b)

theorem ans_live {a b : Node} (ha : a ≠ .nil) (hb : b ≠ .nil) : ans a b = decide (labels a = labels b) := by
  unfold ans
  split
  · exact absurd rfl ha
  · exact absurd rfl ha
  · exact absurd rfl hb
  · rfl

theorem start_nil {a b : Node} (h : a = .nil ∨ b = .nil) : start a b = .live .closed .closed (.done (ans a b)) := by
  rcases h with rfl | rfl
  · cases b <;> rfl
  · cases a <;> rfl

theorem start_good {a b : Node} (ha : a ≠ .nil) (hb : b ≠ .nil) : Good (labels a) (labels b) (start a b) := by
  rw [start_live ha hb]
  exact ⟨[], by simp [Producer.labels, workLabels, labelsL, Job.node], by
    simp [Producer.labels, workLabels, labelsL, Job.node]⟩

theorem done_stuck {p q r s} (h : Step (.live p q (.done r)) s) (hp : p = .closed) (hq : q = .closed) : False := by
  subst hp hq
  cases h with
  | first h => cases h
  | second h => cases h
  | firstCrash h => cases h
  | secondCrash h => cases h

theorem steps_stuck {n r s} (h : Steps n (.live .closed .closed (.done r)) s) :
    s = .live .closed .closed (.done r) := by
  generalize ht : Sys.live .closed .closed (.done r) = t at h
  induction h with
  | zero => rfl
  | succ _ h ih => rw [ih ht, ← ht] at h; exact (done_stuck h rfl rfl).elim

theorem safe_singleton {n : Node} (h : NoNil n) : (Producer.running [.must n]).Safe := by
  intro j hj
  simp at hj
  subst hj
  exact .inl ⟨n, rfl, h⟩

theorem doomed_singleton {n : Node} (h : ¬ NoNil n) : (Producer.running [.must n]).Doomed :=
  ⟨.must n, by simp, .inl ⟨n, rfl, h⟩⟩

theorem answer_reached {s : Sys} {la lb} (hs : s.Safe) (hg : Good la lb s) :
    ∃ n, Steps n s (.live .closed .closed (.done (decide (la = lb)))) := by
  have key : ∀ k (s : Sys), s.size ≤ k → s.Safe → Good la lb s →
      ∃ n, Steps n s (.live .closed .closed (.done (decide (la = lb)))) := by
    intro k
    induction k with
    | zero =>
      intro s hk hs _
      cases s with
      | crashed => exact hs.elim
      | live p q c => simp [Sys.size] at hk
    | succ k ih =>
      intro s hk hs hg
      cases s with
      | crashed => exact hs.elim
      | live p q c =>
        rcases progress hg with ⟨s', hst⟩ | heq
        · have hlt := step_size hst
          obtain ⟨n, hn⟩ := ih s' (by omega) (safe_step hst hs) (good_step hst hg)
          have : ∀ {m u v}, Steps m u v → ∀ {w}, Step w u → Steps (m + 1) w v := by
            intro m u v h
            induction h with
            | zero => intro w hw; exact .succ .zero hw
            | succ _ hst ih => intro w hw; exact .succ (ih hw) hst
          exact ⟨n + 1, this hn hst⟩
        · rw [heq]; exact ⟨0, .zero⟩
  exact key s.size s (Nat.le_refl _) hs hg

theorem same_nil_left {b : Node} (hb : NoNil b) (h : Same .nil b) : Missing b := by
  cases h with
  | missing _ h => exact h

/-! ### C32 -/

/-- Under every schedule: no panic, no deadlock; the only state without a successor is the one in which the comparison has
answered and both walking goroutines are stopped; and the answer is the same for all schedules.  Missing: trees with a nil
interface value as a child, see `nil_child_panics`. -/
theorem comparison_finishes_partial (a b : Node) (ha : NilOr a) (hb : NilOr b) :
    ∃ r, ∀ n s, Steps n (start a b) s →
      s ≠ .crashed ∧ ((∃ s', Step s s') ∨ s = .live .closed .closed (.done r)) := by
  by_cases hnil : a = .nil ∨ b = .nil
  · refine ⟨ans a b, fun n s h => ?_⟩
    rw [start_nil hnil] at h
    have := steps_stuck h
    subst this
    exact ⟨by simp, .inr rfl⟩
  · rw [not_or] at hnil
    have ha' : NoNil a := by cases ha with | nil => exact absurd rfl hnil.1 | node h => exact h
    have hb' : NoNil b := by cases hb with | nil => exact absurd rfl hnil.2 | node h => exact h
    refine ⟨decide (labels a = labels b), fun n s h => ?_⟩
    have hg := steps_good h (start_good hnil.1 hnil.2)
    have hs : s.Safe := steps_safe h (by
      rw [start_live hnil.1 hnil.2]
      exact ⟨safe_singleton ha', safe_singleton hb'⟩)
    cases s with
    | crashed => exact hs.elim
    | live p q c => exact ⟨by simp, progress hg⟩

/-- No schedule takes more steps than some number, which is linear in the sizes of the trees: the comparison terminates. -/
theorem comparison_terminates (a b : Node) {n s} (h : Steps n (start a b) s) : n ≤ 2 * (sizeOf a + sizeOf b) + 9 := by
  have hz := steps_size h
  by_cases hnil : a = .nil ∨ b = .nil
  · rw [start_nil hnil] at hz
    simp [Sys.size, Producer.size, Consumer.size] at hz
    omega
  · rw [not_or] at hnil
    rw [start_live hnil.1 hnil.2] at hz
    simp [Sys.size, Producer.size, Consumer.size, workSize, Job.node] at hz
    omega

/-- The answer does not depend on the schedule, and there is one (missing: as for `comparison_finishes_partial`). -/
theorem answer_unique_partial (a b : Node) (ha : NilOr a) (hb : NilOr b) : ∃ r, Answers a b r ∧ ∀ r', Answers a b r' → r' = r := by
  by_cases hnil : a = .nil ∨ b = .nil
  · refine ⟨ans a b, ⟨0, by rw [start_nil hnil]; exact .zero⟩, ?_⟩
    rintro r' ⟨n, h⟩
    rw [start_nil hnil] at h
    simpa using steps_stuck h
  · rw [not_or] at hnil
    have ha' : NoNil a := by cases ha with | nil => exact absurd rfl hnil.1 | node h => exact h
    have hb' : NoNil b := by cases hb with | nil => exact absurd rfl hnil.2 | node h => exact h
    refine ⟨decide (labels a = labels b), answer_reached (by
      rw [start_live hnil.1 hnil.2]
      exact ⟨safe_singleton ha', safe_singleton hb'⟩) (start_good hnil.1 hnil.2), ?_⟩
    rintro r' ⟨n, h⟩
    exact (steps_good h (start_good hnil.1 hnil.2)).2.2

/-- A nil among the children of a stream, sequence or mapping of one of the trees: no schedule answers, every schedule ends
with a panic (it cannot go on forever by `comparison_terminates`). -/
theorem nil_child_panics (a b : Node) (ha : a ≠ .nil) (hb : b ≠ .nil) (h : ¬ NoNil a ∨ ¬ NoNil b) :
    ∀ n s, Steps n (start a b) s → (∃ s', Step s s') ∨ s = .crashed := by
  intro n s hst
  have hg := steps_good hst (start_good ha hb)
  have hd : s.Doomed := steps_doomed hst (by
    rw [start_live ha hb]
    exact h.imp doomed_singleton doomed_singleton)
  cases s with
  | crashed => exact .inr rfl
  | live p q c =>
    rcases progress hg with hp | heq
    · exact .inl hp
    · cases heq
      exact (hd.elim id id).elim

/-- A tree with all kinds of children. -/
def exTree : Node :=
  .stream [.content (.properties (.tag ['t']) .nil) (.mapping [.mappingEntry (.text ['k'] .absent) (.sequence [.null])])]

example : NilOr exTree :=
  .node (.stream (.cons (.content (.node (.properties (.node .tag) .nil)) (.node (.mapping (.cons
    (.mappingEntry (.node .text) (.node (.sequence (.cons .null .nil)))) .nil)))) .nil))

/-- the hypotheses of `nil_child_panics` are met: a sequence with a nil child -/
example : ¬ NoNil (.sequence [.null, .nil]) := by
  intro h
  cases h with
  | sequence h => cases h with
    | cons _ h => cases h with
      | cons h _ => cases h

/-! ### C33 -/

/-- Trees with the same structure and texts are found equal, under every schedule. -/
theorem same_trees_equal (a b : Node) (ha : NoNil a) (hb : NoNil b) (h : Same a b) (r : Bool) (hr : Answers a b r) :
    r = true := by
  obtain ⟨n, hn⟩ := hr
  have ha' : a ≠ .nil := by rintro rfl; cases ha
  have hb' : b ≠ .nil := by rintro rfl; cases hb
  have := (steps_good hn (start_good ha' hb')).2.2
  rw [this]
  simp [(same_labels h).1]

/-- Missing for the property: the comparison does not see where a collection ends (`ends_ignored`).  If the trees agree in
that (`shape`), it decides their equality. -/
theorem decides_equality_partial (a b : Node) (ha : NoNil a) (hb : NoNil b) (hroot : present a = present b)
    (hshape : shape a = shape b) : Answers a b true ↔ Same a b := by
  have ha' : a ≠ .nil := by rintro rfl; cases ha
  have hb' : b ≠ .nil := by rintro rfl; cases hb
  constructor
  · rintro ⟨n, hn⟩
    have := (steps_good hn (start_good ha' hb')).2.2
    have hl : labels a = labels b := by simpa using this.symm
    exact (decode (xs := []) (ys := []) (us := []) (vs := []) (by rw [← present_eq, ← present_eq, hroot])
      (by simpa using hl) (by simpa using hshape)).1
  · intro h
    obtain ⟨r, hr, _⟩ := answer_unique_partial a b (.node ha) (.node hb)
    have := same_trees_equal a b ha hb h r hr
    rwa [this] at hr

/-- The answer "equal" is that of an equivalence relation. -/
theorem equal_equivalence :
    (∀ a, NoNil a → Answers a a true) ∧
    (∀ a b, NoNil a → NoNil b → Answers a b true → Answers b a true) ∧
    (∀ a b c, NoNil a → NoNil b → NoNil c → Answers a b true → Answers b c true → Answers a c true) := by
  have key : ∀ a b, NoNil a → NoNil b → (Answers a b true ↔ labels a = labels b) := by
    intro a b ha hb
    have ha' : a ≠ .nil := by rintro rfl; cases ha
    have hb' : b ≠ .nil := by rintro rfl; cases hb
    constructor
    · rintro ⟨n, hn⟩
      have := (steps_good hn (start_good ha' hb')).2.2
      simpa using this.symm
    · intro h
      obtain ⟨r, ⟨n, hr⟩, _⟩ := answer_unique_partial a b (.node ha) (.node hb)
      have := (steps_good hr (start_good ha' hb')).2.2
      rw [h] at this
      simp at this
      subst this
      exact ⟨n, hr⟩
  refine ⟨fun a ha => (key a a ha ha).2 rfl, fun a b ha hb h => ?_, fun a b c ha hb hc h1 h2 => ?_⟩
  · exact (key b a hb ha).2 ((key a b ha hb).1 h).symm
  · exact (key a c ha hc).2 (((key a b ha hb).1 h1).trans ((key b c hb hc).1 h2))

/-- `[[a], b]` -/
def treeA : Node := .sequence [.sequence [.text ['a'] .absent], .text ['b'] .absent]

/-- `[[a, b]]` -/
def treeB : Node := .sequence [.sequence [.text ['a'] .absent, .text ['b'] .absent]]

/-- The property fails: the trees of `[[a], b]` and `[[a, b]]` are found equal. -/
theorem ends_ignored : NoNil treeA ∧ NoNil treeB ∧ Answers treeA treeB true ∧ ¬ Same treeA treeB := by
  have ha : NoNil treeA := .sequence (.cons (.sequence (.cons .text .nil)) (.cons .text .nil))
  have hb : NoNil treeB := .sequence (.cons (.sequence (.cons .text (.cons .text .nil))) .nil)
  refine ⟨ha, hb, ?_, ?_⟩
  · obtain ⟨r, ⟨n, hr⟩, _⟩ := answer_unique_partial treeA treeB (.node ha) (.node hb)
    have h := (steps_good hr (start_good (by rintro h; cases h) (by rintro h; cases h))).2.2
    have : labels treeA = labels treeB := by simp [treeA, treeB, labels, labelsL, label, Node.type?, text?]
    rw [this] at h
    simp at h
    subst h
    exact ⟨n, hr⟩
  · intro h
    cases h with
    | missing h => cases h
    | sequence h => cases h with
      | cons _ h => cases h

/-- two trees of the same shape which differ in a quoting only -/
example : present (Node.sequence [.text ['a'] .single]) = present (Node.sequence [.text ['a'] .double]) ∧
    shape (Node.sequence [.text ['a'] .single]) = shape (Node.sequence [.text ['a'] .double]) ∧
    Same (Node.sequence [.text ['a'] .single]) (Node.sequence [.text ['a'] .double]) :=
  ⟨rfl, by simp [shape, shapes, here, present], .sequence (.cons .text .nil)⟩

/-- two trees of the same shape which are different -/
example : shape (Node.sequence [.text ['a'] .single]) = shape (Node.sequence [.text ['b'] .single]) ∧
    ¬ Same (Node.sequence [.text ['a'] .single]) (Node.sequence [.text ['b'] .single]) := by
  refine ⟨by simp [shape, shapes, here, present], fun h => ?_⟩
  cases h with
  | missing h => cases h
  | sequence h => cases h with
    | cons h _ => cases h with
      | missing h => cases h

end Verif.Props.Comparator
