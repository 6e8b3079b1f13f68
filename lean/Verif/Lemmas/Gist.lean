import Verif.Spec.Gist

/-!
Spelling a tree takes the texts of its scalars and its marks.
-/

set_option linter.unusedSimpArgs false
set_option linter.unusedVariables false

namespace Verif.Spec.Says

open Verif.Ast

theorem gists_append (a b : List Node) : gists (a ++ b) = gists a ++ gists b := by
  induction a with
  | nil => rfl
  | cons n ns ih => simp only [List.cons_append, gists, ih, List.append_assoc]

theorem marksAll_append (c : Char) (a b : List Node) : marksAll c (a ++ b) = marksAll c a + marksAll c b := by
  induction a with
  | nil => simp only [List.nil_append, marksAll]; omega
  | cons n ns ih => simp only [List.cons_append, marksAll, ih]; omega

theorem gists_snoc (a : List Node) (n : Node) : gists (a ++ [n]) = gists a ++ gist n := by
  rw [gists_append]
  simp only [gists, List.append_nil]

theorem marksAll_snoc (c : Char) (a : List Node) (n : Node) : marksAll c (a ++ [n]) = marksAll c a + marks c n := by
  rw [marksAll_append]
  simp only [marksAll]; omega

theorem gist_nil (a u : List Char) (h : a.Sublist u) : (a ++ []).Sublist u := by
  rw [List.append_nil]
  exact h

theorem gist_more (a : List Node) (n : Node) (u : List Char) (h : (gists a ++ gist n).Sublist u) :
    (gists (a ++ [n])).Sublist u := by
  rw [gists_snoc]
  exact h

mutual

theorem gist_says : ∀ {n : Node} {u : List Char}, Says n u → (gist n).Sublist u 
  | _, _, .null => .refl _
  | _, _, .plain s => .refl _
  | _, _, .single s => .cons _ (List.sublist_append_left ..)
  | _, _, .double s => .cons _ (List.sublist_append_left ..)
  | _, _, .alias s => .cons _ (.refl _)
  | _, _, .anchor s => List.nil_sublist _
  | _, _, .tag s => List.nil_sublist _
  | _, _, .tagAnchor _ _ _ _ _ _ => List.nil_sublist _
  | _, _, .anchorTag _ _ _ _ _ _ => List.nil_sublist _
  | _, _, .onlyTag _ _ _ _ _ => List.nil_sublist _
  | _, _, .onlyAnchor _ _ _ _ _ => List.nil_sublist _
  | _, _, .content p c a b h1 h2 => (gist_says h2).trans (List.sublist_append_right ..)
  | _, _, .entry k v a b h1 h2 => (gist_says h1).append (.cons _ (gist_says h2))
  | _, _, .key k a h1 => gist_nil _ _ (gist_says h1)
  | _, _, .noItems => List.nil_sublist _
  | _, _, .row es w h1 => .cons _ ((gist_row h1).trans (List.sublist_append_left ..))
  | _, _, .dashed es w h1 => gist_dashed h1
  | _, _, .noEntries => List.nil_sublist _
  | _, _, .pairs es w h1 => .cons _ ((gist_row h1).trans (List.sublist_append_left ..))
  | _, _, .listed es w h1 => gist_listed h1

theorem gist_row : ∀ {es : List Node} {u : List Char}, Row es u → (gists es).Sublist u 
  | _, _, .one e u h1 => gist_nil _ _ (gist_says h1)
  | _, _, .more es e a b h1 h2 => gist_more _ _ _ <| (gist_row h1).append (.cons _ (gist_says h2))

theorem gist_dashed : ∀ {es : List Node} {u : List Char}, Dashed es u → (gists es).Sublist u 
  | _, _, .one e u h1 => gist_nil _ _ (.cons _ (gist_says h1))
  | _, _, .more es e a b h1 h2 => gist_more _ _ _ <| (gist_dashed h1).append (.cons _ (gist_says h2))

theorem gist_listed : ∀ {es : List Node} {u : List Char}, Listed es u → (gists es).Sublist u 
  | _, _, .one e u h1 => gist_nil _ _ (gist_says h1)
  | _, _, .more es e a b h1 h2 => gist_more _ _ _ <| (gist_listed h1).append (gist_says h2)

end

theorem gist_stream {ds : List Node} {u : List Char} (h : Stream ds u) : (gists ds).Sublist u := by
  induction h with
  | none => exact .refl _
  | more ds d a b _ h2 ih => exact gists_snoc ds d ▸ ih.append (gist_says h2)

theorem count_mark (c d : Char) (l : List Char) : (d :: l).count c = same c d + l.count c := by
  rw [List.count_cons]
  unfold same
  by_cases h : c = d
  · subst h; simp only [beq_self_eq_true, if_true]; omega
  · simp only [h, if_false, beq_iff_eq, Ne.symm h]; omega

theorem colon_le (c : Char) (n : Node) : colon c n ≤ same c ':' := by
  unfold colon
  split <;> omega

theorem marks_absent {c : Char} {n : Node} (h : Absent n) : marks c n = 0 := by
  rcases h with rfl | rfl <;> rfl

mutual

theorem marks_says (c : Char) : ∀ {n : Node} {u : List Char}, Says n u → marks c n ≤ u.count c 
  | _, _, .null => Nat.zero_le _
  | _, _, .plain s => Nat.zero_le _
  | _, _, .single s => by simp only [marks, count_mark, List.count_append, List.count_nil]; omega
  | _, _, .double s => by simp only [marks, count_mark, List.count_append, List.count_nil]; omega
  | _, _, .alias s => by simp only [marks, count_mark]; omega
  | _, _, .anchor s => by simp only [marks, count_mark]; omega
  | _, _, .tag s => by simp only [marks, count_mark]; omega
  | _, _, .tagAnchor t a x y h1 h2 => by
    have := marks_says c h1
    have := marks_says c h2
    simp only [marks, List.count_append]; omega
  | _, _, .anchorTag t a x y h1 h2 => by
    have := marks_says c h1
    have := marks_says c h2
    simp only [marks, List.count_append]; omega
  | _, _, .onlyTag t a x h1 h2 => by
    have := marks_says c h1
    simp only [marks, marks_absent h2]; omega
  | _, _, .onlyAnchor t a x h1 h2 => by
    have := marks_says c h2
    simp only [marks, marks_absent h1]; omega
  | _, _, .content p n x y h1 h2 => by
    have := marks_says c h1
    have := marks_says c h2
    simp only [marks, List.count_append]; omega
  | _, _, .entry k v x y h1 h2 => by
    have := marks_says c h1
    have := marks_says c h2
    have := colon_le c v
    simp only [marks, List.count_append, count_mark]; omega
  | _, _, .key k x h1 => by
    have := marks_says c h1
    simp only [marks, colon]; omega
  | _, _, .noItems => Nat.zero_le _
  | _, _, .row es w h1 => by
    have := marks_row c h1
    simp only [marks, count_mark, List.count_append]; omega
  | _, _, .dashed es w h1 => marks_dashed c h1
  | _, _, .noEntries => Nat.zero_le _
  | _, _, .pairs es w h1 => by
    have := marks_row c h1
    simp only [marks, count_mark, List.count_append]; omega
  | _, _, .listed es w h1 => marks_listed c h1

theorem marks_row (c : Char) : ∀ {es : List Node} {u : List Char}, Row es u → marksAll c es ≤ u.count c 
  | _, _, .one e u h1 => marks_says c h1
  | _, _, .more es e a b h1 h2 => by
    have := marks_row c h1
    have := marks_says c h2
    simp only [marksAll_snoc, List.count_append, count_mark]; omega

theorem marks_dashed (c : Char) : ∀ {es : List Node} {u : List Char}, Dashed es u → marksAll c es ≤ u.count c 
  | _, _, .one e u h1 => by
    have := marks_says c h1
    simp only [marksAll, count_mark]; omega
  | _, _, .more es e a b h1 h2 => by
    have := marks_dashed c h1
    have := marks_says c h2
    simp only [marksAll_snoc, List.count_append, count_mark]; omega

theorem marks_listed (c : Char) : ∀ {es : List Node} {u : List Char}, Listed es u → marksAll c es ≤ u.count c 
  | _, _, .one e u h1 => marks_says c h1
  | _, _, .more es e a b h1 h2 => by
    have := marks_listed c h1
    have := marks_says c h2
    simp only [marksAll_snoc, List.count_append, count_mark]; omega

end

theorem marks_stream (c : Char) {ds : List Node} {u : List Char} (h : Stream ds u) : marksAll c ds ≤ u.count c := by
  induction h with
  | none => exact Nat.zero_le _
  | more ds d a b _ h2 ih =>
    have := marks_says c h2
    simp only [marksAll_snoc, List.count_append]; omega

end Verif.Spec.Says
