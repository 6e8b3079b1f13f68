import Verif.Model.Printer
import Verif.Spec.Drawing

/-! Lemmas about drawings of syntax trees. -/

set_option linter.unusedSimpArgs false

namespace Verif.Printer

open Verif.Ast Verif.Drawing

/-- The label of a node which is not the root. -/
def label (ty : NodeType) (t : List Char) : List Char := "[".toList ++ typeName ty ++ "] ".toList ++ replaceBreaks t

theorem unlines_append (a b : List (List Char)) : unlines (a ++ b) = unlines a ++ unlines b := by simp [unlines]

theorem drawAll_append (lbl : NodeType → List Char → List Char) (i : List Char) : ∀ (a b : List Outline), b ≠ [] →
    ∃ x, drawAll lbl i (a ++ b) = x ++ drawAll lbl i b
  | [], b, _ => ⟨[], rfl⟩
  | c :: cs, b, hb => by
    obtain ⟨x, hx⟩ := drawAll_append lbl i cs b hb
    exact ⟨_, by rw [List.cons_append, drawAll, hx, ← List.append_assoc]⟩

/-- The children of a node in its outline. -/
def kids : Node → List Outline
  | .stream docs => outlines docs
  | .properties t a => outline t ++ outline a
  | .content p c => outline p ++ outline c
  | .sequence es => outlines es
  | .mapping es => outlines es
  | .mappingEntry k v => outline k ++ outline v
  | _ => []

theorem outline_node {n : Node} {ty : NodeType} (h : n.type? = some ty) :
    outline n = [.node ty ((text? n).getD []) (kids n)] := by
  cases n <;> simp [Node.type?] at h <;> subst h <;> rfl

theorem outline_nil {n : Node} : outline n = [] ↔ isNil n = true := by cases n <;> simp [outline, isNil]

theorem isNil_type {n : Node} : isNil n = false ↔ n.type? ≠ none := by cases n <;> simp [Node.type?, isNil]

theorem levels_add {p q : Printer} {k : Nat} (h : ∀ i < k, isLevelEnded p i = isLevelEnded q i) : levels p k = levels q k := by
  induction k with
  | zero => rfl
  | succ k ih => rw [levels, levels, ih (fun i hi => h i (by omega)), h k (by omega)]

theorem levels_of {p q : Printer} (h : p.levelsEnded = q.levelsEnded) (k : Nat) : levels p k = levels q k :=
  levels_add fun i _ => by unfold isLevelEnded; rw [h]

/-- What a visit does. -/
def Draws (f : Printer → Option Printer) (cs : List Outline) : Prop := ∀ p : Printer, p.printedAny = true →
  (∀ l ∈ p.levelsEnded, l < p.level) →
  ∃ e, f p = some { p with edgeType := e, w := p.w ++ unlines (drawAll label (levels p p.level) cs) }

theorem printValue_draws {p : Printer} {n : Node} {ty : NodeType} (hp : p.printedAny = true) (h : n.type? = some ty) :
    printValue p n = some { p with w := p.w ++ unlines [levels p p.level ++ p.edgeType ++ [' '] ++ label ty ((text? n).getD [])] } := by
  unfold printValue printValueWithLevel
  rw [hp, if_pos rfl, h]
  cases ht : text? n <;> simp [label, unlines, ht, replaceBreaks]

theorem child_draws {last : Bool} {n : Node} {ty : NodeType} {f : Printer → Option Printer} (h : n.type? = some ty)
    (hf : Draws f (kids n)) (p : Printer) (hp : p.printedAny = true) (hl : ∀ l ∈ p.levelsEnded, l < p.level) :
    ∃ e, child last n f p = some { p with
      edgeType := e
      levelsEnded := if last then p.levelsEnded ++ [p.level] else p.levelsEnded
      w := p.w ++ unlines (draw label (levels p p.level) last (.node ty ((text? n).getD []) (kids n))) } := by
  unfold child
  generalize hq : mark last p = q
  have q1 : q.printedAny = true := by subst hq; unfold mark; split <;> exact hp
  have q2 : q.level = p.level := by subst hq; unfold mark; split <;> rfl
  have q3 : q.w = p.w := by subst hq; unfold mark; split <;> rfl
  have q4 : q.levelsEnded = if last then p.levelsEnded ++ [p.level] else p.levelsEnded := by subst hq; cases last <;> rfl
  have q5 : q.edgeType ++ [' '] = edge last := by subst hq; cases last <;> rfl
  have q6 : levels q p.level = levels p p.level := by
    refine levels_add (fun i hi => ?_)
    unfold isLevelEnded
    rw [q4]
    cases last with
    | false => rfl
    | true => simp; omega
  have q7 : ∀ r : Printer, r.levelsEnded = q.levelsEnded → levels r (p.level + 1) = levels p p.level ++ gap last := by
    intro r hr
    rw [levels, levels_of hr, q6]
    congr 1
    unfold isLevelEnded
    rw [hr, q4]
    cases last with
    | true => simp [gap, indentSize]
    | false =>
      have : (p.levelsEnded.any fun x => decide (x = p.level)) = false := by
        simp only [List.any_eq_false, decide_eq_true_eq]
        intro x hx he
        have := hl x hx
        omega
      simp [gap, indentSize, edgeLink, this]
  simp only [printValue_draws q1 h, bind, Option.bind, pure]
  obtain ⟨e, he⟩ := hf { q with w := q.w ++ unlines [levels q q.level ++ q.edgeType ++ [' '] ++ label ty ((text? n).getD [])], level := q.level + 1 } q1
    (by
      show ∀ l ∈ q.levelsEnded, l < q.level + 1
      rw [q4, q2]
      intro l hl'
      cases last with
      | false => have := hl l hl'; omega
      | true =>
        simp at hl'
        rcases hl' with h | rfl
        · have := hl l h; omega
        · omega)
  refine ⟨e, ?_⟩
  simp only [q2] at he ⊢
  have q8 : ∀ w pa, levels ⟨q.edgeType, p.level + 1, q.levelsEnded, w, pa⟩ (p.level + 1) = levels p p.level ++ gap last := fun _ _ => q7 _ rfl
  rw [q8] at he
  rw [he]
  simp only [Option.some.injEq, Printer.mk.injEq, true_and, q4, q2, Nat.add_sub_cancel, hp, q1, and_true]
  rw [q3, q6, draw, List.append_assoc _ q.edgeType, q5]
  show _ = p.w ++ unlines ([_] ++ _)
  rw [unlines_append, List.append_assoc]

theorem pair_draws {a b : Node} {f g : Printer → Option Printer} (hf : isNil a = false → Draws f (kids a))
    (hg : isNil b = false → Draws g (kids b)) (p : Printer) (hp : p.printedAny = true) (hl : ∀ l ∈ p.levelsEnded, l < p.level) :
    ∃ e ls, pair a b f g p = some { p with
      edgeType := e, levelsEnded := ls, w := p.w ++ unlines (drawAll label (levels p p.level) (outline a ++ outline b)) } := by
  unfold pair
  cases ha : isNil a with
  | true =>
    cases hb : isNil b with
    | true =>
      refine ⟨p.edgeType, p.levelsEnded, ?_⟩
      simp [outline_nil.2 ha, outline_nil.2 hb, drawAll, unlines]
    | false =>
      obtain ⟨ty, ht⟩ := Option.ne_none_iff_exists'.1 (isNil_type.1 hb)
      obtain ⟨e, he⟩ := child_draws (last := true) ht (hg hb) p hp hl
      refine ⟨e, p.levelsEnded ++ [p.level], ?_⟩
      simp only [if_true, bind, Option.bind, Nat.zero_add, Nat.sub_self, decide_true, Bool.false_eq_true, if_false]
      rw [he, outline_nil.2 ha, outline_node ht]
      simp [drawAll]
  | false =>
    obtain ⟨ty, ht⟩ := Option.ne_none_iff_exists'.1 (isNil_type.1 ha)
    cases hb : isNil b with
    | true =>
      obtain ⟨e, he⟩ := child_draws (last := true) ht (hf ha) p hp hl
      refine ⟨e, p.levelsEnded ++ [p.level], ?_⟩
      simp only [if_true, bind, Option.bind, Nat.add_zero, Nat.sub_self, decide_true, Bool.false_eq_true, if_false]
      rw [he, outline_nil.2 hb, outline_node ht]
      simp [drawAll]
    | false =>
      obtain ⟨ty', ht'⟩ := Option.ne_none_iff_exists'.1 (isNil_type.1 hb)
      obtain ⟨e, he⟩ := child_draws (last := false) ht (hf ha) p hp hl
      simp only [bind, Option.bind, Bool.false_eq_true, if_false] at he ⊢
      have hd : decide (0 = 1 + 1 - 1) = false := rfl
      simp only [decide_true, hd, he]
      obtain ⟨e', he'⟩ := child_draws (last := true) ht' (hg hb) { p with
        edgeType := e, w := p.w ++ unlines (draw label (levels p p.level) false (.node ty ((text? a).getD []) (kids a))) } hp hl
      refine ⟨e', p.levelsEnded ++ [p.level], ?_⟩
      simp only at he' ⊢
      rw [he', outline_node ht, outline_node ht']
      have hlv : ∀ e w, levels { p with edgeType := e, w := w } p.level = levels p p.level := fun e w => levels_add (fun i _ => rfl)
      simp [drawAll, unlines_append, hlv]

mutual
theorem accept_draws : ∀ n : Node, Whole n → isNil n = false → Draws (accept n) (kids n)
  | .nil, _, h => by simp [isNil] at h
  | .stream docs, hw, _ => by
    intro p hp hl
    obtain ⟨e, ls, he⟩ := visitAll_draws docs hw p hp hl
    exact ⟨e, by rw [accept, he]; rfl⟩
  | .sequence es, hw, _ => by
    intro p hp hl
    obtain ⟨e, ls, he⟩ := visitAll_draws es hw p hp hl
    exact ⟨e, by rw [accept, he]; rfl⟩
  | .mapping es, hw, _ => by
    intro p hp hl
    obtain ⟨e, ls, he⟩ := visitAll_draws es hw p hp hl
    exact ⟨e, by rw [accept, he]; rfl⟩
  | .content a b, hw, _ => by
    intro p hp hl
    rw [Whole] at hw
    obtain ⟨e, ls, he⟩ := pair_draws (accept_draws a hw.1) (accept_draws b hw.2) p hp hl
    exact ⟨e, by rw [accept, he]; rfl⟩
  | .mappingEntry a b, hw, _ => by
    intro p hp hl
    rw [Whole] at hw
    obtain ⟨e, ls, he⟩ := pair_draws (accept_draws a hw.1) (accept_draws b hw.2) p hp hl
    exact ⟨e, by rw [accept, he]; rfl⟩
  | .properties a b, hw, _ => by
    intro p hp hl
    rw [Whole] at hw
    obtain ⟨e, ls, he⟩ := pair_draws (accept_draws a hw.1) (accept_draws b hw.2) p hp hl
    exact ⟨e, by rw [accept, he]; rfl⟩
  | .basic _, _, _ | .tag _, _, _ | .anchor _, _, _ | .alias _, _, _ | .blockHeader _ _, _, _ | .text _ _, _, _ | .indent _, _, _ | .null, _, _ =>
    fun p _ _ => ⟨p.edgeType, by simp [accept, kids, drawAll, unlines]⟩
theorem visitAll_draws : ∀ (ns : List Node), AllWhole ns → ∀ p : Printer, p.printedAny = true →
    (∀ l ∈ p.levelsEnded, l < p.level) → ∃ e ls, visitAll ns p = some { p with
      edgeType := e, levelsEnded := ls, w := p.w ++ unlines (drawAll label (levels p p.level) (outlines ns)) }
  | [], _, p, _, _ => ⟨p.edgeType, p.levelsEnded, by simp [visitAll, outlines, drawAll, unlines]⟩
  | n :: ns, hw, p, hp, hl => by
    rw [AllWhole] at hw
    obtain ⟨⟨hn, hw1⟩, hw2⟩ := hw
    obtain ⟨ty, ht⟩ := Option.ne_none_iff_exists'.1 hn
    obtain ⟨e, he⟩ := child_draws (last := ns.isEmpty) ht (accept_draws n hw1 (isNil_type.2 hn)) p hp hl
    have ho : (outlines ns).isEmpty = ns.isEmpty := by
      cases ns with
      | nil => rfl
      | cons m ms =>
        rw [AllWhole] at hw2
        obtain ⟨ty', ht'⟩ := Option.ne_none_iff_exists'.1 hw2.1.1
        simp [outlines, outline_node ht']
    rw [visitAll, he]
    simp only [bind, Option.bind, outlines, outline_node ht, List.singleton_append, drawAll, ho]
    cases ns with
    | nil => exact ⟨e, _, by simp [visitAll, outlines, drawAll]; rfl⟩
    | cons m ms =>
      obtain ⟨e', ls, he'⟩ := visitAll_draws (m :: ms) hw2 { p with
        edgeType := e, w := p.w ++ unlines (draw label (levels p p.level) false (.node ty ((text? n).getD []) (kids n))) } hp hl
      have hlv : ∀ e w, levels { p with edgeType := e, w := w } p.level = levels p p.level := fun e w => levels_add (fun i _ => rfl)
      simp only [hlv] at he'
      refine ⟨e', ls, ?_⟩
      simp only [List.isEmpty_cons, Bool.false_eq_true, if_false]
      rw [he']
      simp [unlines_append]
end

end Verif.Printer
