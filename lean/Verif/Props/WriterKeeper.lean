import Verif.Spec.Expansion
import Verif.Lemmas.Layout

/-! C64: the writer of the yayamls engine with an anchors keeper (`engines/yayamls/encode/writer.go`). -/

set_option linter.unusedSimpArgs false

namespace Verif.Props.WriterKeeper

open Verif.Ast Verif.Writer Verif.WriterKeeper Verif.Expansion

variable {κ : Type} {K : Keeper κ}

/-- A writer with other anchors and errors. -/
def dress (w : Writer) (a : Place κ) : Writer := { w with metAnchors := a.met, errors := a.unknown }

theorem dress_put (w : Writer) (a : Place κ) (s : List Char) : put (dress w a) s = dress (put w s) a := rfl
theorem dress_before (w : Writer) (a : Place κ) (s t : List Char) : before (dress w a) s t = dress (before w s t) a := rfl
theorem dress_increase (w : Writer) (a : Place κ) : increase (dress w a) = dress (increase w) a := rfl
theorem dress_decrease (w : Writer) (a : Place κ) : decrease (dress w a) = dress (decrease w) a := rfl
theorem dress_complex (w : Writer) (a : Place κ) : preparedComplex (dress w a) = dress (preparedComplex w) a := rfl
theorem dress_simple (w : Writer) (a : Place κ) : preparedSimple (dress w a) = dress (preparedSimple w) a := rfl
theorem dress_indentation (w : Writer) (a : Place κ) : maybeWriteIndentation (dress w a) = dress (maybeWriteIndentation w) a := by
  unfold maybeWriteIndentation
  have : hasWriteLineBreak (dress w a) = hasWriteLineBreak w := rfl
  rw [this]
  split <;> rfl
theorem dress_break (w : Writer) (a : Place κ) : maybeWriteLineBreak (dress w a) = dress (maybeWriteLineBreak w) a := by
  unfold maybeWriteLineBreak
  have : hasWriteLineBreak (dress w a) = hasWriteLineBreak w := rfl
  rw [this]
  split <;> rfl
theorem dress_literal (w : Writer) (a : Place κ) (t : List Char) :
    writeMultilineLiteralText (dress w a) t = dress (writeMultilineLiteralText w t) a := by
  unfold writeMultilineLiteralText
  simp only [dress_put]
  generalize put (put w _) _ = v
  generalize splitLines t = ls
  induction ls generalizing v with
  | nil => rfl
  | cons l ls ih =>
    simp only [List.foldl_cons]
    rw [← ih]
    congr 1
    split <;> rfl
theorem dress_text (w : Writer) (a : Place κ) (t : List Char) (q : Quoting) : visitText (dress w a) t q = dress (visitText w t q) a := by
  unfold visitText
  simp only [dress_simple, dress_literal]
  cases q with
  | single => rfl
  | double => rfl
  | absent => simp only; split <;> rfl
  | unknown => simp only; split <;> rfl

theorem complex_of_collection {n : Node} (h : Collection n) : isComplex n = some true := by
  induction h with
  | sequence => rfl
  | mapping => rfl
  | content _ ih => simp [isComplex, ih]

theorem collection_of_complex : ∀ {n : Node}, isComplex n = some true → Collection n
  | .nil, h => by simp [isComplex] at h
  | .basic _, h => by simp [isComplex] at h
  | .stream _, h => by simp [isComplex] at h
  | .properties _ _, h => by simp [isComplex] at h
  | .tag _, h => by simp [isComplex] at h
  | .anchor _, h => by simp [isComplex] at h
  | .alias _, h => by simp [isComplex] at h
  | .blockHeader _ _, h => by simp [isComplex] at h
  | .text _ _, h => by simp [isComplex] at h
  | .content _ _, h => .content (collection_of_complex (by simpa [isComplex] using h))
  | .indent _, h => by simp [isComplex] at h
  | .sequence _, _ => .sequence
  | .mapping _, _ => .mapping
  | .mappingEntry _ _, h => by simp [isComplex] at h
  | .null, h => by simp [isComplex] at h

/-- Keys stand for collections only if they are collections. -/
def SameKind (k k' : Node) : Prop := Collection k ↔ Collection k'

mutual
theorem complex_some {Key : Node → Node → Prop} {a : Place κ} {n n' : Node} {b : Place κ} :
    Expands K Key a n n' b → (∃ x, isComplex n = some x) ∧ ∃ x, isComplex n' = some x
  | .leaf h => by cases h <;> exact ⟨⟨_, rfl⟩, ⟨_, rfl⟩⟩
  | .anchor => ⟨⟨_, rfl⟩, ⟨_, rfl⟩⟩
  | .met _ => ⟨⟨_, rfl⟩, ⟨_, rfl⟩⟩
  | .alias _ _ _ h => ⟨⟨_, rfl⟩, (complex_some h).2⟩
  | .nothing _ _ _ => ⟨⟨_, rfl⟩, ⟨_, rfl⟩⟩
  | .unknown _ _ => ⟨⟨_, rfl⟩, ⟨_, rfl⟩⟩
  | .stream _ => ⟨⟨_, rfl⟩, ⟨_, rfl⟩⟩
  | .sequence _ => ⟨⟨_, rfl⟩, ⟨_, rfl⟩⟩
  | .mapping _ => ⟨⟨_, rfl⟩, ⟨_, rfl⟩⟩
  | .entry _ _ _ => ⟨⟨_, rfl⟩, ⟨_, rfl⟩⟩
  | .properties _ _ => ⟨⟨_, rfl⟩, ⟨_, rfl⟩⟩
  | .bare _ h => by simpa [isComplex] using complex_some h
  | .content _ _ _ h => by simpa [isComplex] using complex_some h
end

theorem complex_same {Key : Node → Node → Prop} {a : Place κ} {n n' : Node} {b : Place κ} (h : Expands K Key a n n' b)
    (hs : SameKind n n') : isComplex n = isComplex n' := by
  obtain ⟨⟨x, hx⟩, ⟨y, hy⟩⟩ := complex_some h
  rw [hx, hy]
  cases x <;> cases y <;> try rfl
  · have := complex_of_collection (hs.2 (collection_of_complex hy)); rw [hx] at this; cases this
  · have := complex_of_collection (hs.1 (collection_of_complex hx)); rw [hy] at this; cases this

/-- The visit with fuel for the aliases below. -/
def V (K : Keeper κ) (n : Node) (s : WriterKeeper.St κ) (f : Nat) : Res (WriterKeeper.St κ) := visitK K (accept K f) n s

mutual
theorem visit_expands {a : Place κ} {n n' : Node} {b : Place κ} : Expands K SameKind a n n' b → ∀ w : Writer,
    ∃ w', visit n' w = some w' ∧ Conv (V K n (dress w a, a.keeper)) (dress w' b, b.keeper)
  | .leaf h, w => by
    cases h with
    | text => exact ⟨_, rfl, 0, fun f _ => by simp only [V, visitK, dress_text]⟩
    | _ => exact ⟨_, rfl, 0, fun f _ => rfl⟩
  | .anchor, w => ⟨_, rfl, 0, fun f _ => rfl⟩
  | @Expands.met _ _ _ a t h, w =>
    ⟨_, rfl, 0, fun f _ => by
      have : (dress w a).metAnchors.contains t = true := by simpa [dress] using h
      simp only [V, visitK, this]
      rfl⟩
  | @Expands.alias _ _ _ a t m _ _ h1 h2 h3 h4, w => by
    obtain ⟨w', hw, hc⟩ := visit_expands h4 w
    refine ⟨w', hw, Conv.succ (g' := V K m (dress w a, a.keeper)) (fun f => ?_) hc⟩
    have : (dress w a).metAnchors.contains t = false := by simpa [dress] using h1
    simp only [V, visitK, this, h2, h3, accept]
    rfl
  | @Expands.nothing _ _ _ a t m h1 h2 h3, w =>
    ⟨_, rfl, 0, fun f _ => by
      have : (dress w a).metAnchors.contains t = false := by simpa [dress] using h1
      simp only [V, visitK, this, h2, h3]
      rfl⟩
  | @Expands.unknown _ _ _ a t h1 h2, w =>
    ⟨_, rfl, 0, fun f _ => by
      have : (dress w a).metAnchors.contains t = false := by simpa [dress] using h1
      simp only [V, visitK, this, h2]
      rfl⟩
  | .stream h, w => by
    obtain ⟨w', hw, hc⟩ := documents_expands h w
    exact ⟨w', hw, hc.congr fun f => by simp only [V, visitK]⟩
  | .sequence h, w => by
    obtain ⟨w', hw, hc⟩ := sequence_expands h (preparedComplex w)
    exact ⟨w', by simp only [visit]; exact hw, hc.congr fun f => by simp only [V, visitK, dress_complex]⟩
  | .mapping h, w => by
    obtain ⟨w', hw, hc⟩ := mapping_expands h (preparedComplex w)
    exact ⟨w', by simp only [visit]; exact hw, hc.congr fun f => by simp only [V, visitK, dress_complex]⟩
  | @Expands.entry _ _ _ a k k' b v v' c h1 h2 h3, w => by
    obtain ⟨x, hx⟩ := (complex_some h1).1
    have hx' : isComplex k' = some x := by rw [← complex_same h1 h2, hx]
    obtain ⟨w1, hw1, hc1⟩ := visit_expands h1 (if x then increase (put w "? ".toList) else w)
    obtain ⟨w2, hw2, hc2⟩ := visit_expands h3 (increase (before (put (if x then decrease w1 else w1) [':']) ['\n'] [' ']))
    refine ⟨decrease w2, by simp only [visit, hx', hw1, hw2], ?_⟩
    obtain ⟨f1, hf1⟩ := hc1
    obtain ⟨f2, hf2⟩ := hc2
    refine ⟨max f1 f2, fun f hf => ?_⟩
    have e1 := hf1 f (by omega)
    have e2 := hf2 f (by omega)
    have t1 : (if x then increase (put (dress w a) "? ".toList) else dress w a) = dress (if x then increase (put w "? ".toList) else w) a := by
      cases x <;> rfl
    have t2 : (if x then decrease (dress w1 b) else dress w1 b) = dress (if x then decrease w1 else w1) b := by cases x <;> rfl
    simp only [V] at e1 e2
    simp only [V, visitK, hx]
    rw [t1, e1]
    simp only [Res.bind_ok]
    rw [t2]
    simp only [dress_put, dress_before, dress_increase, e2, Res.bind_ok, dress_decrease]
  | .properties h1 (.missing h2), w => by
    obtain ⟨e1, ho1⟩ := opt_expands h1
    obtain ⟨w1, hw1, f1, hf1⟩ := ho1 w
    refine ⟨w1, by simp only [visit, hw1]; simp [h2], f1, fun f hf => ?_⟩
    have g1 := hf1 f hf
    simp only [V] at g1
    simp only [V, visitK]
    split at g1
    · rename_i ht; simp [ht, g1, h2]
    · rename_i ht; injection g1 with g1; simp [ht, h2]; exact Prod.mk.inj g1
  | @Expands.properties _ _ _ a t t' b n n' c h1 (.given h2 h3 h4), w => by
    obtain ⟨e1, ho1⟩ := opt_expands h1
    obtain ⟨w1, hw1, f1, hf1⟩ := ho1 w
    obtain ⟨w2, hw2, f2, hf2⟩ := visit_expands h4 (if validNode t' then put w1 [' '] else w1)
    refine ⟨w2, by simp only [visit, hw1]; simpa [h3] using hw2, max f1 f2, fun f hf => ?_⟩
    have g1 := hf1 f (by omega)
    have g2 := hf2 f (by omega)
    have t2 : (if validNode t' then put (dress w1 b) [' '] else dress w1 b) = dress (if validNode t' then put w1 [' '] else w1) b := by
      cases validNode t' <;> rfl
    simp only [V] at g1 g2
    simp only [V, visitK]
    rw [← e1] at t2 g2
    split at g1
    · rename_i ht
      simp only [ht, if_true] at t2 g2
      simp [ht, g1, h2, t2, g2]
    · rename_i ht
      simp only [ht, if_false] at t2 g2
      injection g1 with g1
      injection g1 with g3 g4
      simp [ht, h2, g3, g4]
      exact g2
  | .bare h1 h2, w => by
    obtain ⟨w1, hw1, f1, hf1⟩ := visit_expands h2 w
    refine ⟨w1, by simp [visit, h1, hw1], f1, fun f hf => ?_⟩
    have g1 := hf1 f hf
    simp only [V] at g1
    simp [V, visitK, h1, g1]
  | .content h1 h2 h3 h4, w => by
    obtain ⟨w1, hw1, f1, hf1⟩ := visit_expands h3 (put w [' '])
    obtain ⟨w2, hw2, f2, hf2⟩ := visit_expands h4 w1
    refine ⟨w2, by simp [visit, h2, hw1, hw2], max f1 f2, fun f hf => ?_⟩
    have g1 := hf1 f (by omega)
    have g2 := hf2 f (by omega)
    simp only [V] at g1 g2
    simp only [V, visitK, h1, if_true, dress_put, g1, Res.bind_ok]
    exact g2

theorem opt_expands {a : Place κ} {n n' : Node} {b : Place κ} : ExpandsOpt K SameKind a n n' b →
    validNode n = validNode n' ∧ ∀ w : Writer,
    ∃ w', (if validNode n' then visit n' w else some w) = some w' ∧
      Conv (fun f => if validNode n then V K n (dress w a, a.keeper) f else .ok (dress w a, a.keeper)) (dress w' b, b.keeper)
  | .missing h => ⟨rfl, fun w => ⟨w, by simp [h], 0, fun f _ => by simp [h]⟩⟩
  | .given h1 h2 h3 => ⟨by rw [h1, h2], fun w => by
      obtain ⟨w', hw, hc⟩ := visit_expands h3 w
      exact ⟨w', by simp [h2, hw], hc.congr fun f => by simp [h1]⟩⟩

theorem documents_expands {a : Place κ} {n n' : List Node} {b : Place κ} : ExpandsList K SameKind a n n' b → ∀ w : Writer,
    ∃ w', visitDocuments n' w = some w' ∧ Conv (fun f => documentsK K (accept K f) n (dress w a, a.keeper)) (dress w' b, b.keeper)
  | .nil, w => ⟨w, rfl, 0, fun f _ => rfl⟩
  | .cons h1 h2, w => by
    obtain ⟨w1, hw1, f1, hf1⟩ := visit_expands h1 (put w "---\n".toList)
    obtain ⟨w2, hw2, f2, hf2⟩ := documents_expands h2 (put w1 "...\n".toList)
    refine ⟨w2, by simp only [visitDocuments, hw1, hw2], max f1 f2, fun f hf => ?_⟩
    have g1 := hf1 f (by omega)
    have g2 := hf2 f (by omega)
    simp only [V] at g1
    simp only [documentsK, dress_put, g1, Res.bind_ok]
    exact g2

theorem sequence_expands {a : Place κ} {n n' : List Node} {b : Place κ} : ExpandsList K SameKind a n n' b → ∀ w : Writer,
    ∃ w', visitSequence n' w = some w' ∧ Conv (fun f => sequenceK K (accept K f) n (dress w a, a.keeper)) (dress w' b, b.keeper)
  | .nil, w => ⟨w, rfl, 0, fun f _ => rfl⟩
  | .cons h1 h2, w => by
    obtain ⟨w1, hw1, f1, hf1⟩ := visit_expands h1 (before (increase (put (maybeWriteIndentation w) ['-'])) [' '] [' '])
    obtain ⟨w2, hw2, f2, hf2⟩ := sequence_expands h2 (maybeWriteLineBreak (decrease w1))
    refine ⟨w2, by simp only [visitSequence, hw1, hw2], max f1 f2, fun f hf => ?_⟩
    have g1 := hf1 f (by omega)
    have g2 := hf2 f (by omega)
    simp only [V] at g1
    simp only [sequenceK, dress_indentation, dress_put, dress_increase, dress_before, g1, Res.bind_ok]
    simp only [dress_decrease, dress_break]
    exact g2

theorem mapping_expands {a : Place κ} {n n' : List Node} {b : Place κ} : ExpandsList K SameKind a n n' b → ∀ w : Writer,
    ∃ w', visitMapping n' w = some w' ∧ Conv (fun f => mappingK K (accept K f) n (dress w a, a.keeper)) (dress w' b, b.keeper)
  | .nil, w => ⟨w, rfl, 0, fun f _ => rfl⟩
  | .cons h1 h2, w => by
    obtain ⟨w1, hw1, f1, hf1⟩ := visit_expands h1 (maybeWriteIndentation w)
    obtain ⟨w2, hw2, f2, hf2⟩ := mapping_expands h2 (maybeWriteLineBreak w1)
    refine ⟨w2, by simp only [visitMapping, hw1, hw2], max f1 f2, fun f hf => ?_⟩
    have g1 := hf1 f (by omega)
    have g2 := hf2 f (by omega)
    simp only [V] at g1
    simp only [mappingK, dress_indentation, g1, Res.bind_ok]
    simp only [dress_break]
    exact g2

end

/-- **C64 (partial).** With a keeper of anchors the text of what the tree stands for is written, if every alias has a meaning; otherwise the
write fails.  This holds for every state of the writer and of the keeper.

Missing: keys which are aliases to collections, for which it is false (see `alias_key_lost`). -/
theorem written_expanded_partial (w : Writer) (k : κ) (n n' : Node) (b : Place κ) (h : Expands K SameKind ⟨k, [], 0⟩ n n' b) :
    ∃ o s, Conv (fun f => writeStringK K f w k n) (o, s) ∧ s.2 = b.keeper ∧
      o = if b.unknown = 0 then (writeString newWriter n').1 else .failed := by
  obtain ⟨w', hw, hc⟩ := visit_expands h (reset w)
  have hs := visit_same _ _ _ hw
  obtain ⟨f0, hf0⟩ := hc
  refine ⟨if b.unknown = 0 then .text w'.buf else .failed, (if b.unknown = 0 then { dress w' b with buf := [] } else dress w' b, b.keeper),
    ⟨f0 + 1, fun f hf => ?_⟩, rfl, ?_⟩
  · obtain ⟨f, rfl⟩ : ∃ g, f = g + 1 := ⟨f - 1, by omega⟩
    have := hf0 f (by omega)
    have e : accept K (f + 1) n (reset w, k) = .ok (dress w' b, b.keeper) := this
    simp only [writeStringK, e, Res.bind_ok]
    by_cases hb : b.unknown = 0
    · simp [hb, dress]
    · have : 0 < b.unknown := by omega
      simp [hb, this, dress]
  · have e : reset w = reset newWriter := rfl
    rw [e] at hw
    have : w'.errors = 0 := hs.2.1
    simp [writeString, writeTo, write, hw, this]

/-- What is known, as a set of names. -/
def Knows (a : Place κ) (ns : List Name) (b : Place κ) : Prop := ∀ t, t ∈ b.met ↔ t ∈ a.met ∨ Name.anchor t ∈ ns

theorem closed_nil (met : List (List Char)) : Closed met [] := by
  intro l r t h
  simp at h

theorem closed_append {a b : Place κ} {m n : List Name} (h1 : Closed a.met m) (h2 : Knows a m b) (h3 : Closed b.met n) :
    Closed a.met (m ++ n) := by
  intro l r t h
  rcases List.append_eq_append_iff.1 h with ⟨x, rfl, hx⟩ | ⟨x, hm, hx⟩
  · rcases h3 x r t hx with h | h
    · rcases (h2 t).1 h with h | h
      · exact .inl h
      · exact .inr (by simp [h])
    · exact .inr (by simp [h])
  · cases x with
    | nil =>
      simp only [List.nil_append] at hx
      rcases h3 [] r t hx.symm with h | h
      · rcases (h2 t).1 h with h | h
        · exact .inl h
        · simp only [List.append_nil] at hm
          exact .inr (hm ▸ h)
      · simp at h
    | cons y ys =>
      simp only [List.cons_append, List.cons.injEq] at hx
      obtain ⟨rfl, -⟩ := hx
      exact h1 l ys t hm

theorem knows_append {a b c : Place κ} {m n : List Name} (h1 : Knows a m b) (h2 : Knows b n c) : Knows a (m ++ n) c := by
  intro t
  rw [h2 t, h1 t, List.mem_append, or_assoc]

theorem knows_nil (a : Place κ) : Knows a [] a := by
  intro t
  simp

theorem names_invalid {n : Node} (h : validNode n = false) : names n = [] := by
  unfold validNode at h
  split at h
  · simp [names]
  · simp [names]
  · cases h

mutual
theorem expands_closed {Key : Node → Node → Prop} {a : Place κ} {n n' : Node} {b : Place κ} :
    Expands K Key a n n' b → Closed a.met (names n') ∧ Knows a (names n') b
  | @Expands.leaf _ _ _ _ m h => by
    have : names m = [] := by cases h <;> simp [names]
    rw [this]
    exact ⟨closed_nil _, knows_nil _⟩
  | .anchor => by
    simp only [names]
    refine ⟨?_, fun t => by simp [or_comm]⟩
    intro l r t h
    rcases l with _ | ⟨x, l⟩ <;> simp at h
  | .met h => by
    simp only [names]
    refine ⟨?_, fun t => by simp⟩
    intro l r t ht
    rcases l with _ | ⟨x, l⟩
    · simp at ht; exact .inl (ht.1 ▸ h)
    · simp at ht
  | .alias _ _ _ h => expands_closed h
  | .nothing _ _ _ => ⟨by simp only [Node.invalid, names]; exact closed_nil _, by simp only [Node.invalid, names]; exact knows_nil _⟩
  | .unknown _ _ => ⟨by simp only [Node.invalid, names]; exact closed_nil _, by simp only [Node.invalid, names]; intro t; simp⟩
  | .stream h => by simpa only [names] using list_closed h
  | .sequence h => by simpa only [names] using list_closed h
  | .mapping h => by simpa only [names] using list_closed h
  | .entry h1 _ h2 => by
    obtain ⟨a1, a2⟩ := expands_closed h1
    obtain ⟨b1, b2⟩ := expands_closed h2
    simp only [names]
    exact ⟨closed_append a1 a2 b1, knows_append a2 b2⟩
  | .properties h1 h2 => by
    obtain ⟨a1, a2⟩ := opt_closed h1
    obtain ⟨b1, b2⟩ := opt_closed h2
    simp only [names]
    exact ⟨closed_append a1 a2 b1, knows_append a2 b2⟩
  | .bare h1 h2 => by
    simp only [names, names_invalid h1, List.nil_append]
    exact expands_closed h2
  | .content _ _ h1 h2 => by
    obtain ⟨a1, a2⟩ := expands_closed h1
    obtain ⟨b1, b2⟩ := expands_closed h2
    simp only [names]
    exact ⟨closed_append a1 a2 b1, knows_append a2 b2⟩

theorem opt_closed {Key : Node → Node → Prop} {a : Place κ} {n n' : Node} {b : Place κ} :
    ExpandsOpt K Key a n n' b → Closed a.met (names n') ∧ Knows a (names n') b
  | .missing h => by rw [names_invalid h]; exact ⟨closed_nil _, knows_nil _⟩
  | .given _ _ h => expands_closed h

theorem list_closed {Key : Node → Node → Prop} {a : Place κ} {n n' : List Node} {b : Place κ} :
    ExpandsList K Key a n n' b → Closed a.met (namesList n') ∧ Knows a (namesList n') b
  | .nil => by simp only [namesList]; exact ⟨closed_nil _, knows_nil _⟩
  | .cons h1 h2 => by
    obtain ⟨a1, a2⟩ := expands_closed h1
    obtain ⟨b1, b2⟩ := list_closed h2
    simp only [namesList]
    exact ⟨closed_append a1 a2 b1, knows_append a2 b2⟩
end

/-- C64.  What a tree stands for has no dangling aliases: each of them comes after an anchor of its name. -/
theorem no_dangling_alias (Key : Node → Node → Prop) (k : κ) (n n' : Node) (b : Place κ) (h : Expands K Key ⟨k, [], 0⟩ n n' b)
    (l r : List Name) (t : List Char) (ht : names n' = l ++ Name.alias t :: r) : Name.anchor t ∈ l := by
  rcases (expands_closed h).1 l r t ht with h | h
  · cases h
  · exact h

mutual
/-- What a tree stands for is determined. -/
theorem expands_det {Key : Node → Node → Prop} {a : Place κ} {n n' : Node} {b : Place κ} {n'' : Node} {b' : Place κ} :
    Expands K Key a n n' b → Expands K Key a n n'' b' → n' = n'' ∧ b = b'
  | .leaf h, h' => by cases h <;> cases h' <;> first | exact ⟨rfl, rfl⟩ | (rename_i h; cases h)
  | .anchor, h' => by
    cases h' with
    | leaf h => cases h
    | anchor => exact ⟨rfl, rfl⟩
  | .met h, h' => by
    cases h' with
    | leaf h => cases h
    | met => exact ⟨rfl, rfl⟩
    | alias g => exact absurd h g
    | nothing g => exact absurd h g
    | unknown g => exact absurd h g
  | .alias h1 h2 h3 h4, h' => by
    cases h' with
    | leaf h => cases h
    | met g => exact absurd g h1
    | alias _ g2 _ g4 => rw [h2] at g2; cases g2; exact expands_det h4 g4
    | nothing _ g2 g3 => rw [h2] at g2; cases g2; rw [h3] at g3; cases g3
    | unknown _ g2 => rw [h2] at g2; cases g2
  | .nothing h1 h2 h3, h' => by
    cases h' with
    | leaf h => cases h
    | met g => exact absurd g h1
    | alias _ g2 g3 => rw [h2] at g2; cases g2; rw [h3] at g3; cases g3
    | nothing => exact ⟨rfl, rfl⟩
    | unknown _ g2 => rw [h2] at g2; cases g2
  | .unknown h1 h2, h' => by
    cases h' with
    | leaf h => cases h
    | met g => exact absurd g h1
    | alias _ g2 => rw [h2] at g2; cases g2
    | nothing _ g2 => rw [h2] at g2; cases g2
    | unknown => exact ⟨rfl, rfl⟩
  | .stream h, h' => by
    cases h' with
    | leaf h => cases h
    | stream g => obtain ⟨rfl, rfl⟩ := list_det h g; exact ⟨rfl, rfl⟩
  | .sequence h, h' => by
    cases h' with
    | leaf h => cases h
    | sequence g => obtain ⟨rfl, rfl⟩ := list_det h g; exact ⟨rfl, rfl⟩
  | .mapping h, h' => by
    cases h' with
    | leaf h => cases h
    | mapping g => obtain ⟨rfl, rfl⟩ := list_det h g; exact ⟨rfl, rfl⟩
  | .entry h1 _ h2, h' => by
    cases h' with
    | leaf h => cases h
    | entry g1 _ g2 =>
      obtain ⟨rfl, rfl⟩ := expands_det h1 g1
      obtain ⟨rfl, rfl⟩ := expands_det h2 g2
      exact ⟨rfl, rfl⟩
  | .properties h1 h2, h' => by
    cases h' with
    | leaf h => cases h
    | properties g1 g2 =>
      obtain ⟨rfl, rfl⟩ := opt_det h1 g1
      obtain ⟨rfl, rfl⟩ := opt_det h2 g2
      exact ⟨rfl, rfl⟩
  | .bare h1 h2, h' => by
    cases h' with
    | leaf h => cases h
    | bare g1 g2 => obtain ⟨rfl, rfl⟩ := expands_det h2 g2; exact ⟨rfl, rfl⟩
    | content g1 => rw [h1] at g1; cases g1
  | .content h1 _ h2 h3, h' => by
    cases h' with
    | leaf h => cases h
    | bare g1 => rw [h1] at g1; cases g1
    | content _ _ g2 g3 =>
      obtain ⟨rfl, rfl⟩ := expands_det h2 g2
      obtain ⟨rfl, rfl⟩ := expands_det h3 g3
      exact ⟨rfl, rfl⟩

theorem opt_det {Key : Node → Node → Prop} {a : Place κ} {n n' : Node} {b : Place κ} {n'' : Node} {b' : Place κ} :
    ExpandsOpt K Key a n n' b → ExpandsOpt K Key a n n'' b' → n' = n'' ∧ b = b'
  | .missing h, h' => by
    cases h' with
    | missing => exact ⟨rfl, rfl⟩
    | given g => rw [h] at g; cases g
  | .given h _ h2, h' => by
    cases h' with
    | missing g => rw [h] at g; cases g
    | given _ _ g2 => exact expands_det h2 g2

theorem list_det {Key : Node → Node → Prop} {a : Place κ} {n n' : List Node} {b : Place κ} {n'' : List Node} {b' : Place κ} :
    ExpandsList K Key a n n' b → ExpandsList K Key a n n'' b' → n' = n'' ∧ b = b'
  | .nil, h' => by cases h'; exact ⟨rfl, rfl⟩
  | .cons h1 h2, h' => by
    cases h' with
    | cons g1 g2 =>
      obtain ⟨rfl, rfl⟩ := expands_det h1 g1
      obtain ⟨rfl, rfl⟩ := list_det h2 g2
      exact ⟨rfl, rfl⟩
end

/-- C64.  A tree stands for one tree only. -/
theorem expansion_unique (Key : Node → Node → Prop) (a b b' : Place κ) (n n' n'' : Node) (h : Expands K Key a n n' b)
    (h' : Expands K Key a n n'' b') : n' = n'' ∧ b = b' := expands_det h h'

theorem closed_left {met : List (List Char)} {m n : List Name} (h : Closed met (m ++ n)) : Closed met m := by
  intro l r t e
  exact h l (r ++ n) t (by simp [e])

theorem closed_right {a b : Place κ} {m n : List Name} (h : Closed a.met (m ++ n)) (hk : Knows a m b) : Closed b.met n := by
  intro l r t e
  rcases h (m ++ l) r t (by simp [e]) with h | h
  · exact .inl ((hk t).2 (.inl h))
  · rcases List.mem_append.1 h with h | h
    · exact .inl ((hk t).2 (.inr h))
    · exact .inr h

mutual
theorem closed_expands : (n : Node) → (a : Place κ) → NilFree n → Closed a.met (names n) →
    ∃ b, Expands K SameKind a n n b ∧ b.unknown = a.unknown
  | .nil, _, h, _ => absurd h (by simp [NilFree])
  | .basic _, a, _, _ => ⟨a, .leaf .basic, rfl⟩
  | .tag _, a, _, _ => ⟨a, .leaf .tag, rfl⟩
  | .blockHeader _ _, a, _, _ => ⟨a, .leaf .blockHeader, rfl⟩
  | .text _ _, a, _, _ => ⟨a, .leaf .text, rfl⟩
  | .indent _, a, _, _ => ⟨a, .leaf .indent, rfl⟩
  | .null, a, _, _ => ⟨a, .leaf .null, rfl⟩
  | .anchor _, a, _, _ => ⟨_, .anchor, rfl⟩
  | .alias t, a, _, h => by
    rcases h [] [] t (by simp [names]) with h | h
    · exact ⟨a, .met h, rfl⟩
    · cases h
  | .stream es, a, hn, hc => by
    rw [NilFree] at hn; rw [names] at hc
    obtain ⟨b, h1, h2⟩ := closed_expands_list es a hn hc
    exact ⟨b, .stream h1, h2⟩
  | .sequence es, a, hn, hc => by
    rw [NilFree] at hn; rw [names] at hc
    obtain ⟨b, h1, h2⟩ := closed_expands_list es a hn hc
    exact ⟨b, .sequence h1, h2⟩
  | .mapping es, a, hn, hc => by
    rw [NilFree] at hn; rw [names] at hc
    obtain ⟨b, h1, h2⟩ := closed_expands_list es a hn hc
    exact ⟨b, .mapping h1, h2⟩
  | .mappingEntry k v, a, hn, hc => by
    rw [NilFree] at hn; rw [names] at hc
    obtain ⟨b, h1, h2⟩ := closed_expands k a hn.1 (closed_left hc)
    obtain ⟨c, h3, h4⟩ := closed_expands v b hn.2 (closed_right hc (expands_closed h1).2)
    exact ⟨c, .entry h1 Iff.rfl h3, h4.trans h2⟩
  | .properties t n, a, hn, hc => by
    rw [NilFree] at hn; rw [names] at hc
    obtain ⟨b, h1, h2⟩ : ∃ b, ExpandsOpt K SameKind a t t b ∧ b.unknown = a.unknown := by
      cases hv : validNode t with
      | false => exact ⟨a, .missing hv, rfl⟩
      | true =>
        obtain ⟨b, h1, h2⟩ := closed_expands t a (hn.1 hv) (closed_left hc)
        exact ⟨b, .given hv hv h1, h2⟩
    cases hv : validNode n with
    | false => exact ⟨b, .properties h1 (.missing hv), h2⟩
    | true =>
      obtain ⟨c, h3, h4⟩ := closed_expands n b (hn.2 hv) (closed_right hc (opt_closed h1).2)
      exact ⟨c, .properties h1 (.given hv hv h3), h4.trans h2⟩
  | .content p n, a, hn, hc => by
    rw [NilFree] at hn; rw [names] at hc
    cases hv : validNode p with
    | false =>
      rw [names_invalid hv, List.nil_append] at hc
      obtain ⟨b, h1, h2⟩ := closed_expands n a hn.2 hc
      exact ⟨b, .bare hv h1, h2⟩
    | true =>
      obtain ⟨b, h1, h2⟩ := closed_expands p a (hn.1 hv) (closed_left hc)
      obtain ⟨c, h3, h4⟩ := closed_expands n ⟨K.bind b.keeper (.content p n), b.met, b.unknown⟩ hn.2
        (closed_right (b := b) hc (expands_closed h1).2)
      exact ⟨c, .content hv hv h1 h3, h4.trans h2⟩

theorem closed_expands_list : (n : List Node) → (a : Place κ) → NilFreeList n → Closed a.met (namesList n) →
    ∃ b, ExpandsList K SameKind a n n b ∧ b.unknown = a.unknown
  | [], a, _, _ => ⟨a, .nil, rfl⟩
  | e :: es, a, hn, hc => by
    rw [NilFreeList] at hn; rw [namesList] at hc
    obtain ⟨b, h1, h2⟩ := closed_expands e a hn.1 (closed_left hc)
    obtain ⟨c, h3, h4⟩ := closed_expands_list es b hn.2 (closed_right hc (expands_closed h1).2)
    exact ⟨c, .cons h1 h3, h4.trans h2⟩
end

/-- C64.  If every alias of the tree comes after an anchor of its name, then the keeper does not matter: the text is the one which is written
without it. -/
theorem keeper_irrelevant (w : Writer) (k : κ) (n : Node) (hn : NilFree n) (hc : Closed [] (names n)) :
    ∃ s, Conv (fun f => writeStringK K f w k n) ((writeString newWriter n).1, s) := by
  obtain ⟨b, h1, h2⟩ := closed_expands (K := K) n ⟨k, [], 0⟩ hn hc
  obtain ⟨o, s, h3, -, h4⟩ := written_expanded_partial w k n n b h1
  rw [if_pos h2] at h4
  exact ⟨s, h4 ▸ h3⟩

/-- A keeper which knows a sequence under the name `a`. -/
def known : AnyBuilder.Anchors := { anchors := [("a".toList, .sequence [.text "x".toList .absent])] }

/-- An alias which the keeper knows, an anchor and an alias to it. -/
def sample : Node := .mapping [.mappingEntry (.text "k".toList .absent) (.alias "a".toList),
  .mappingEntry (.text "l".toList .absent) (.content (.properties .nil (.anchor "b".toList)) (.text "y".toList .absent)),
  .mappingEntry (.text "m".toList .absent) (.alias "b".toList)]

/-- What `sample` stands for. -/
def sample' : Node := .mapping [.mappingEntry (.text "k".toList .absent) (.sequence [.text "x".toList .absent]),
  .mappingEntry (.text "l".toList .absent) (.content (.properties .nil (.anchor "b".toList)) (.text "y".toList .absent)),
  .mappingEntry (.text "m".toList .absent) (.alias "b".toList)]

theorem sample_expands : ∃ b, b.unknown = 0 ∧ Expands anchorsKeeper SameKind ⟨known, [], 0⟩ sample sample' b := by
  have hk : ∀ t, SameKind (.text t .absent) (.text t .absent) := fun _ => Iff.rfl
  exact ⟨_, rfl, .mapping (.cons (.entry (.leaf .text) (hk _) (.alias (by simp) rfl rfl (.sequence (.cons (.leaf .text) .nil))))
    (.cons (.entry (.leaf .text) (hk _) (.content rfl rfl (.properties (.missing rfl) (.given rfl rfl .anchor)) (.leaf .text)))
      (.cons (.entry (.leaf .text) (hk _) (.met (by simp))) .nil)))⟩

example : (writeString newWriter sample').1 = .text "k:\n  - x\nl: &b y\nm: *b\n".toList := by decide +kernel

example : Expansion.Closed [] (names (.sequence [.content (.properties .nil (.anchor ['b'])) .null, .alias ['b']])) := by
  intro l r t h
  simp only [names, namesList] at h
  rcases l with _ | ⟨x, _ | ⟨y, l⟩⟩ <;> simp at h
  obtain ⟨rfl, rfl, rfl⟩ := h
  simp

/-- C64.  An alias which nobody knows is an error. -/
theorem unknown_alias_fails (w : Writer) (t : List Char) (k : κ) (h : K.deref k t = none) :
    ∃ s, Conv (fun f => writeStringK K f w k (.alias t)) (.failed, s) := by
  obtain ⟨o, s, h3, -, h4⟩ := written_expanded_partial (K := K) w k _ _ _ (.unknown (by simp) h)
  exact ⟨s, by simp at h4; exact h4 ▸ h3⟩

example : anchorsKeeper.deref known "b".toList = none := rfl

/-- C64 is false for keys which are aliases to collections: the sequence is written as a part of the mapping, and the colon in the first
column. -/
theorem alias_key_lost : writeStringK anchorsKeeper 2 newWriter known
      (.mapping [.mappingEntry (.alias "a".toList) (.text "v".toList .absent)]) =
    .ok (.text "- x\n: v\n".toList, (newWriter, known)) ∧
    (writeString newWriter (.mapping [.mappingEntry (.sequence [.text "x".toList .absent]) (.text "v".toList .absent)])).1 =
      .text "? - x\n: v\n".toList := by
  constructor
  · rfl
  · decide +kernel

/-- C64.  A keeper which knows an alias as a tree with the alias itself lets the writer run forever. -/
theorem alias_loop_diverges (w : Writer) : Diverges fun f => writeStringK anchorsKeeper f w
    { anchors := [("a".toList, .sequence [.alias "a".toList])] } (.alias "a".toList) := by
  have key : ∀ f (w : Writer), w.metAnchors = [] → accept anchorsKeeper f (.alias "a".toList)
      (w, { anchors := [("a".toList, .sequence [.alias "a".toList])] }) = .timeout := by
    have step : ∀ f (w : Writer), w.metAnchors = [] → accept anchorsKeeper (f + 1) (.alias "a".toList)
        (w, { anchors := [("a".toList, .sequence [.alias "a".toList])] }) = accept anchorsKeeper f (.sequence [.alias "a".toList])
        (w, { anchors := [("a".toList, .sequence [.alias "a".toList])] }) := by
      intro f w hw
      simp only [accept, visitK, hw]
      rfl
    intro f
    induction f with
    | zero => intro w hw; rfl
    | succ f ih =>
      intro w hw
      rw [step f w hw]
      cases f with
      | zero => rfl
      | succ f =>
        show sequenceK _ _ _ _ = _
        simp only [sequenceK]
        have := ih (before (increase (put (maybeWriteIndentation (preparedComplex w)) ['-'])) [' '] [' ']) (by
          unfold maybeWriteIndentation
          split <;> exact hw)
        simp only [accept] at this
        rw [this]
        rfl
  intro f
  simp only [writeStringK]
  rw [key f (reset w) rfl]
  rfl

end Verif.Props.WriterKeeper
