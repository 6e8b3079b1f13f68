import Verif.Model.Writer
import Verif.Spec.Protocol

/-! Lemmas about the writer of the yayamls engine. -/

set_option linter.unusedSimpArgs false

namespace Verif.Writer

open Verif.Ast Verif.Inserter Verif.Protocol

/-- What the visiting methods leave as it was. -/
def Same (w w' : Writer) : Prop :=
  w'.indentation = w.indentation ∧ w'.errors = w.errors ∧ w'.metAnchors = w.metAnchors

theorem Same.trans {a b c : Writer} (h1 : Same a b) (h2 : Same b c) : Same a c :=
  ⟨h2.1.trans h1.1, h2.2.1.trans h1.2.1, h2.2.2.trans h1.2.2⟩

theorem same_put (w : Writer) (s : List Char) : Same w (put w s) := ⟨rfl, rfl, rfl⟩
theorem same_before (w : Writer) (s t : List Char) : Same w (before w s t) := ⟨rfl, rfl, rfl⟩

theorem same_literal (w : Writer) (txt : List Char) : Same w (writeMultilineLiteralText w txt) := by
  have h : ∀ (ls : List (List Char)) (w : Writer),
      Same w (ls.foldl (fun w line =>
        let w := put w ['\n']
        if line.isEmpty then w else put (writeIndentation w) line) w) := by
    intro ls
    induction ls with
    | nil => intro w; exact ⟨rfl, rfl, rfl⟩
    | cons l ls ih =>
      intro w
      refine Same.trans ?_ (ih _)
      dsimp only
      split <;> exact ⟨rfl, rfl, rfl⟩
  exact Same.trans ⟨rfl, rfl, rfl⟩ (h _ _)

theorem same_text (w : Writer) (t : List Char) (q : Quoting) : Same w (visitText w t q) := by
  unfold visitText
  have h0 : Same w (preparedSimple w) := ⟨rfl, rfl, rfl⟩
  cases q <;> dsimp only
  · split
    · exact h0.trans ⟨rfl, rfl, rfl⟩
    · exact h0.trans ⟨rfl, rfl, rfl⟩
  · split
    · exact h0.trans (same_literal _ _)
    · exact h0.trans ⟨rfl, rfl, rfl⟩
  · exact h0.trans ⟨rfl, rfl, rfl⟩
  · exact h0.trans ⟨rfl, rfl, rfl⟩

theorem same_maybeIndent (w : Writer) : Same w (maybeWriteIndentation w) := by
  unfold maybeWriteIndentation
  split <;> exact ⟨rfl, rfl, rfl⟩

theorem same_maybeBreak (w : Writer) : Same w (maybeWriteLineBreak w) := by
  unfold maybeWriteLineBreak
  split <;> exact ⟨rfl, rfl, rfl⟩

theorem same_decrease {w w' : Writer} (h : Same (increase w) w') : Same w (decrease w') := by
  refine ⟨?_, h.2⟩
  have := h.1
  simp only [increase, decrease] at this ⊢
  omega

mutual
theorem visit_same (n : Node) (w w' : Writer) (h : visit n w = some w') : Same w w' := by
  cases n with
  | nil => simp [visit] at h
  | basic _ => simp [visit] at h; subst h; exact ⟨rfl, rfl, rfl⟩
  | blockHeader _ _ => simp [visit] at h; subst h; exact ⟨rfl, rfl, rfl⟩
  | indent _ => simp [visit] at h; subst h; exact ⟨rfl, rfl, rfl⟩
  | stream docs =>
    rw [visit] at h
    exact visitDocuments_same docs w w' h
  | tag t => simp [visit] at h; subst h; exact ⟨rfl, rfl, rfl⟩
  | anchor t => simp [visit] at h; subst h; exact ⟨rfl, rfl, rfl⟩
  | alias t => simp [visit] at h; subst h; exact ⟨rfl, rfl, rfl⟩
  | text t q => simp [visit] at h; subst h; exact same_text _ _ _
  | null => simp [visit] at h; subst h; exact ⟨rfl, rfl, rfl⟩
  | sequence es =>
    rw [visit] at h
    exact Same.trans (b := preparedComplex w) ⟨rfl, rfl, rfl⟩ (visitSequence_same es _ w' h)
  | mapping es =>
    rw [visit] at h
    exact Same.trans (b := preparedComplex w) ⟨rfl, rfl, rfl⟩ (visitMapping_same es _ w' h)
  | mappingEntry k v =>
    rw [visit] at h
    cases hc : isComplex k with
    | none => simp [hc] at h
    | some complex =>
      simp only [hc] at h
      cases h1 : visit k (if complex then increase (put w "? ".toList) else w) with
      | none => simp only [h1] at h; cases h
      | some w1 =>
        simp only [h1] at h
        have s1 := visit_same k _ _ h1
        cases h2 : visit v (increase (before (put (if complex then decrease w1 else w1) [':']) ['\n'] [' '])) with
        | none => simp only [h2] at h; cases h
        | some w2 =>
          simp only [h2, Option.some.injEq] at h
          subst h
          have s2 := visit_same v _ _ h2
          have s3 : Same w (if complex then decrease w1 else w1) := by
            cases complex
            · exact s1
            · exact Same.trans (same_put w _) (same_decrease s1)
          exact s3.trans (Same.trans ⟨rfl, rfl, rfl⟩ (same_decrease s2))
  | properties tag anchor =>
    rw [visit] at h
    cases h1 : (if validNode tag then visit tag w else some w) with
    | none => simp only [h1] at h; cases h
    | some w1 =>
      simp only [h1] at h
      have s1 : Same w w1 := by
        split at h1
        · exact visit_same tag _ _ h1
        · simp at h1; subst h1; exact ⟨rfl, rfl, rfl⟩
      split at h
      · refine s1.trans (Same.trans ?_ (visit_same anchor _ _ h))
        split <;> exact ⟨rfl, rfl, rfl⟩
      · simp at h; subst h; exact s1
  | content props c =>
    rw [visit] at h
    cases h1 : (if validNode props then visit props (put w [' ']) else some w) with
    | none => simp only [h1] at h; cases h
    | some w1 =>
      simp only [h1] at h
      have s1 : Same w w1 := by
        split at h1
        · exact Same.trans (b := put w [' ']) ⟨rfl, rfl, rfl⟩ (visit_same props _ _ h1)
        · simp at h1; subst h1; exact ⟨rfl, rfl, rfl⟩
      exact s1.trans (visit_same c _ _ h)

theorem visitDocuments_same (ds : List Node) (w w' : Writer) (h : visitDocuments ds w = some w') : Same w w' := by
  cases ds with
  | nil => simp [visitDocuments] at h; subst h; exact ⟨rfl, rfl, rfl⟩
  | cons d ds =>
    rw [visitDocuments] at h
    cases h1 : visit d (put w "---\n".toList) with
    | none => simp only [h1] at h; cases h
    | some w1 =>
      simp only [h1] at h
      exact Same.trans (Same.trans (same_put w _) (visit_same d _ _ h1))
        (Same.trans (same_put w1 _) (visitDocuments_same ds _ _ h))

theorem visitSequence_same (es : List Node) (w w' : Writer) (h : visitSequence es w = some w') : Same w w' := by
  cases es with
  | nil => simp [visitSequence] at h; subst h; exact ⟨rfl, rfl, rfl⟩
  | cons e es =>
    rw [visitSequence] at h
    cases h1 : visit e (before (increase (put (maybeWriteIndentation w) ['-'])) [' '] [' ']) with
    | none => simp only [h1] at h; cases h
    | some w1 =>
      simp only [h1] at h
      have s1 := visit_same e _ _ h1
      exact (same_maybeIndent w).trans (Same.trans (same_decrease s1)
        ((same_maybeBreak _).trans (visitSequence_same es _ _ h)))

theorem visitMapping_same (es : List Node) (w w' : Writer) (h : visitMapping es w = some w') : Same w w' := by
  cases es with
  | nil => simp [visitMapping] at h; subst h; exact ⟨rfl, rfl, rfl⟩
  | cons e es =>
    rw [visitMapping] at h
    cases h1 : visit e (maybeWriteIndentation w) with
    | none => simp only [h1] at h; cases h
    | some w1 =>
      simp only [h1] at h
      exact (same_maybeIndent w).trans (Same.trans (visit_same e _ _ h1)
        ((same_maybeBreak _).trans (visitMapping_same es _ _ h)))
end

mutual
/-- No nil pointer where the writer dereferences it. -/
def NilFree : Node → Prop
  | .nil => False
  | .stream ds => NilFreeList ds
  | .sequence es => NilFreeList es
  | .mapping es => NilFreeList es
  | .mappingEntry k v => NilFree k ∧ NilFree v
  | .properties t a => (validNode t = true → NilFree t) ∧ (validNode a = true → NilFree a)
  | .content p c => (validNode p = true → NilFree p) ∧ NilFree c
  | _ => True

def NilFreeList : List Node → Prop
  | [] => True
  | n :: ns => NilFree n ∧ NilFreeList ns
end

theorem isComplex_some : (n : Node) → NilFree n → ∃ b, isComplex n = some b
  | .nil, h => absurd h (by simp [NilFree])
  | .basic _, _ => ⟨_, rfl⟩
  | .stream _, _ => ⟨_, rfl⟩
  | .properties _ _, _ => ⟨_, rfl⟩
  | .tag _, _ => ⟨_, rfl⟩
  | .anchor _, _ => ⟨_, rfl⟩
  | .alias _, _ => ⟨_, rfl⟩
  | .blockHeader _ _, _ => ⟨_, rfl⟩
  | .text _ _, _ => ⟨_, rfl⟩
  | .content _ c, h => isComplex_some c (by rw [NilFree] at h; exact h.2)
  | .indent _, _ => ⟨_, rfl⟩
  | .sequence _, _ => ⟨_, rfl⟩
  | .mapping _, _ => ⟨_, rfl⟩
  | .mappingEntry _ _, _ => ⟨_, rfl⟩
  | .null, _ => ⟨_, rfl⟩

mutual
theorem visit_total (n : Node) (hn : NilFree n) (w : Writer) : ∃ w', visit n w = some w' := by
  cases n with
  | nil => simp [NilFree] at hn
  | stream ds => rw [visit]; exact visitDocuments_total ds (by rw [NilFree] at hn; exact hn) w
  | sequence es => rw [visit]; exact visitSequence_total es (by rw [NilFree] at hn; exact hn) _
  | mapping es => rw [visit]; exact visitMapping_total es (by rw [NilFree] at hn; exact hn) _
  | mappingEntry k v =>
    rw [NilFree] at hn
    obtain ⟨b, hb⟩ := isComplex_some k hn.1
    rw [visit, hb]
    dsimp only
    obtain ⟨w1, h1⟩ := visit_total k hn.1 (if b then increase (put w "? ".toList) else w)
    rw [h1]
    dsimp only
    obtain ⟨w2, h2⟩ := visit_total v hn.2 (increase (before (put (if b then decrease w1 else w1) [':']) ['\n'] [' ']))
    rw [h2]
    exact ⟨_, rfl⟩
  | properties t a =>
    rw [NilFree] at hn
    rw [visit]
    have h1 : ∃ w1, (if validNode t then visit t w else some w) = some w1 := by
      by_cases h : validNode t = true
      · rw [if_pos h]; exact visit_total t (hn.1 h) w
      · rw [if_neg h]; exact ⟨w, rfl⟩
    obtain ⟨w1, h1⟩ := h1
    rw [h1]
    dsimp only
    by_cases h : validNode a = true
    · rw [if_pos h]; exact visit_total a (hn.2 h) _
    · rw [if_neg h]; exact ⟨_, rfl⟩
  | content p c =>
    rw [NilFree] at hn
    rw [visit]
    have h1 : ∃ w1, (if validNode p then visit p (put w [' ']) else some w) = some w1 := by
      by_cases h : validNode p = true
      · rw [if_pos h]; exact visit_total p (hn.1 h) _
      · rw [if_neg h]; exact ⟨w, rfl⟩
    obtain ⟨w1, h1⟩ := h1
    rw [h1]
    exact visit_total c hn.2 _
  | _ => exact ⟨_, by rw [visit]⟩

theorem visitDocuments_total (ds : List Node) (hn : NilFreeList ds) (w : Writer) :
    ∃ w', visitDocuments ds w = some w' := by
  cases ds with
  | nil => exact ⟨w, by rw [visitDocuments]⟩
  | cons d ds =>
    rw [NilFreeList] at hn
    obtain ⟨w1, h1⟩ := visit_total d hn.1 (put w "---\n".toList)
    rw [visitDocuments, h1]
    exact visitDocuments_total ds hn.2 _

theorem visitSequence_total (es : List Node) (hn : NilFreeList es) (w : Writer) :
    ∃ w', visitSequence es w = some w' := by
  cases es with
  | nil => exact ⟨w, by rw [visitSequence]⟩
  | cons e es =>
    rw [NilFreeList] at hn
    obtain ⟨w1, h1⟩ := visit_total e hn.1 (before (increase (put (maybeWriteIndentation w) ['-'])) [' '] [' '])
    rw [visitSequence, h1]
    exact visitSequence_total es hn.2 _

theorem visitMapping_total (es : List Node) (hn : NilFreeList es) (w : Writer) :
    ∃ w', visitMapping es w = some w' := by
  cases es with
  | nil => exact ⟨w, by rw [visitMapping]⟩
  | cons e es =>
    rw [NilFreeList] at hn
    obtain ⟨w1, h1⟩ := visit_total e hn.1 (maybeWriteIndentation w)
    rw [visitMapping, h1]
    exact visitMapping_total es hn.2 _
end

mutual
theorem tree_nilFree (u : Bool) (v : Value Node) (h : ∀ n ∈ raws v, NilFree n) : NilFree (tree u v) := by
  cases v with
  | scalar s => cases s <;> simp [tree, scalarTree, NilFree]
  | seq vs => rw [tree, NilFree]; exact trees_nilFree u vs (fun n hn => h n (by simpa [raws] using hn))
  | map es => rw [tree, NilFree]; exact entryTrees_nilFree u es (fun n hn => h n (by simpa [raws] using hn))
  | raw n => exact h n (by simp [raws])

theorem trees_nilFree (u : Bool) (vs : Values Node) (h : ∀ n ∈ rawsValues vs, NilFree n) :
    NilFreeList (trees u vs) := by
  cases vs with
  | nil => simp [trees, NilFreeList]
  | cons v vs =>
    simp only [rawsValues, List.mem_append] at h
    rw [trees, NilFreeList]
    exact ⟨tree_nilFree u v (fun n hn => h n (.inl hn)), trees_nilFree u vs (fun n hn => h n (.inr hn))⟩

theorem entryTrees_nilFree (u : Bool) (es : Entries Node) (h : ∀ n ∈ rawsEntries es, NilFree n) :
    NilFreeList (entryTrees u es) := by
  cases es with
  | nil => simp [entryTrees, NilFreeList]
  | cons k v es =>
    simp only [rawsEntries, List.mem_append] at h
    rw [entryTrees, NilFreeList, NilFree]
    exact ⟨⟨tree_nilFree u k (fun n hn => h n (.inl hn)), tree_nilFree u v (fun n hn => h n (.inr (.inl hn)))⟩,
      entryTrees_nilFree u es (fun n hn => h n (.inr (.inr hn)))⟩
end

end Verif.Writer
