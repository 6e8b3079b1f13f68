import Verif.Model.PkgPath

/-! Lemmas about paths and go.mod files. -/

set_option linter.unusedSimpArgs false

namespace Verif.PkgPath

/-- An element of a clean path. -/
structure Elem (w : Str) : Prop where
  some : w ≠ []
  one : '/' ∉ w
  dot : w ≠ ['.']
  dots : w ≠ ['.', '.']

/-- The absolute path with these elements. -/
def abs (ws : List Str) : Str := '/' :: join '/' ws

theorem split_ne (sep : Char) (s : Str) : split sep s ≠ [] := by
  cases s with
  | nil => simp [split]
  | cons c s =>
    unfold split
    split
    · simp
    · split <;> simp

theorem split_word (sep : Char) : ∀ w : Str, sep ∉ w → split sep w = [w]
  | [], _ => rfl
  | c :: w, h => by
    simp only [List.mem_cons, not_or] at h
    simp [split, Ne.symm h.1, split_word sep w h.2]

theorem split_more (sep : Char) : ∀ w s : Str, sep ∉ w → split sep (w ++ sep :: s) = w :: split sep s
  | [], s, _ => by simp [split]
  | c :: w, s, h => by
    simp only [List.mem_cons, not_or] at h
    simp [split, Ne.symm h.1, split_more sep w s h.2]

theorem join_cons (sep : Char) (w v : Str) (ws : List Str) : join sep (w :: v :: ws) = w ++ sep :: join sep (v :: ws) := by
  simp [join, List.intersperse]

theorem join_one (sep : Char) (w : Str) : join sep [w] = w := by simp [join, List.intersperse]

theorem split_join (sep : Char) : ∀ ws : List Str, ws ≠ [] → (∀ w ∈ ws, sep ∉ w) → split sep (join sep ws) = ws
  | [w], _, h => by rw [join_one, split_word sep w (h w (by simp))]
  | w :: v :: ws, _, h => by
    rw [join_cons, split_more sep _ _ (h w (by simp)), split_join sep (v :: ws) (by simp) (fun x hx => h x (by simp [hx]))]

theorem join_append (sep : Char) : ∀ as bs : List Str, as ≠ [] → bs ≠ [] → join sep (as ++ bs) = join sep as ++ sep :: join sep bs
  | [a], b :: bs, _, _ => by rw [List.singleton_append, join_cons, join_one]
  | a :: a' :: as, bs, _, hb => by
    rw [List.cons_append, List.cons_append, join_cons, ← List.cons_append, join_append sep (a' :: as) bs (by simp) hb, join_cons]
    simp

theorem join_elem {ws : List Str} (h : ∀ w ∈ ws, Elem w) (hn : ws ≠ []) : join '/' ws ≠ [] ∧ (join '/' ws).head? ≠ some '/' := by
  cases ws with
  | nil => exact absurd rfl hn
  | cons w ws =>
    have hw := h w (by simp)
    obtain ⟨c, w', rfl⟩ := List.exists_cons_of_ne_nil hw.some
    have hc : c ≠ '/' := fun he => hw.one (by simp [he])
    cases ws with
    | nil => rw [join_one]; simp [hc]
    | cons v vs => rw [join_cons]; simp [hc]

theorem cleanElems_elems (r : Bool) : ∀ (ws acc : List Str), (∀ w ∈ ws, w = [] ∨ Elem w) →
    cleanElems r ws acc = acc.reverse ++ ws.filter (fun w => !w.isEmpty)
  | [], acc, _ => by simp [cleanElems]
  | w :: ws, acc, h => by
    have ih := fun acc => cleanElems_elems r ws acc (fun x hx => h x (by simp [hx]))
    rcases h w (by simp) with rfl | hw
    · simp [cleanElems, ih]
    · simp [cleanElems, ih, hw.some, hw.dot, hw.dots]

theorem filter_elems {ws : List Str} (h : ∀ w ∈ ws, Elem w) : ws.filter (fun w => !w.isEmpty) = ws := by
  rw [List.filter_eq_self]
  intro w hw
  have := (h w hw).some
  cases w <;> simp at this ⊢

theorem clean_join {ws : List Str} (h : ∀ w ∈ ws, Elem w) (hn : ws ≠ []) : clean (join '/' ws) = join '/' ws := by
  obtain ⟨h1, h2⟩ := join_elem h hn
  unfold clean
  rw [if_neg h1, if_neg h2, split_join _ ws hn (fun w hw => (h w hw).one), cleanElems_elems _ _ _ (fun w hw => .inr (h w hw)),
    filter_elems h]
  simp [hn]

theorem cleanElems_abs {ws : List Str} (h : ∀ w ∈ ws, Elem w) : cleanElems true (split '/' (abs ws)) [] = ws := by
  have hs : split '/' (abs ws) = [] :: split '/' (join '/' ws) := by simp [abs, split]
  rw [hs]
  cases ws with
  | nil => rfl
  | cons w ws =>
    rw [split_join _ _ (by simp) (fun w hw => (h w hw).one), cleanElems_elems _ _ _ (by
      intro x hx
      rcases List.mem_cons.1 hx with rfl | hx
      · exact .inl rfl
      · exact .inr (h x hx))]
    rw [List.filter_cons, filter_elems h]
    rfl

theorem clean_abs {ws : List Str} (h : ∀ w ∈ ws, Elem w) : clean (abs ws) = abs ws := by
  unfold clean
  rw [if_neg (by simp [abs]), if_pos (by simp [abs]), cleanElems_abs h]
  rfl

/-- Dropping the last element. -/
theorem upto_slash (p w : Str) (h : '/' ∉ w) : ((p ++ '/' :: w).reverse.dropWhile (· ≠ '/')).reverse = p ++ ['/'] := by
  have hw : ∀ l : Str, '/' ∉ l → ∀ r : Str, (l ++ '/' :: r).dropWhile (· ≠ '/') = '/' :: r := by
    intro l
    induction l with
    | nil => intro _ r; simp
    | cons c l ih =>
      intro hl r
      simp only [List.mem_cons, not_or] at hl
      have := ih hl.2 r
      simp only [ne_eq, decide_not] at this ⊢
      simp [Ne.symm hl.1, this]
  rw [List.reverse_append, List.reverse_cons, List.append_assoc, List.singleton_append, hw _ (by simpa using h)]
  simp

theorem dir_abs {ws : List Str} {w : Str} (h : ∀ v ∈ ws, Elem v) (hw : '/' ∉ w) : dir (abs (ws ++ [w])) = abs ws := by
  cases ws with
  | nil =>
    have : abs ([] ++ [w]) = [] ++ '/' :: w := by simp [abs, join_one]
    rw [dir, this, upto_slash _ _ hw]
    rfl
  | cons v vs =>
    have : abs ((v :: vs) ++ [w]) = abs (v :: vs) ++ '/' :: w := by
      rw [abs, join_append _ _ _ (by simp) (by simp), join_one]
      rfl
    rw [dir, this, upto_slash _ _ hw]
    have hs : split '/' (abs (v :: vs) ++ ['/']) = split '/' (abs ((v :: vs) ++ [[]])) := by
      rw [abs, abs, join_append _ _ _ (by simp) (by simp), join_one]
      rfl
    unfold clean
    rw [if_neg (by simp [abs]), if_pos (by simp [abs]), hs]
    have hs2 : split '/' (abs ((v :: vs) ++ [[]])) = [] :: (v :: vs) ++ [[]] := by
      have h1 : split '/' (abs ((v :: vs) ++ [[]])) = [] :: split '/' (join '/' ((v :: vs) ++ [[]])) := by simp [abs, split]
      rw [h1, split_join _ _ (by simp) (by
        intro x hx
        rcases List.mem_append.1 hx with hx | hx
        · exact (h x hx).one
        · simp at hx; simp [hx])]
      rfl
    rw [hs2, cleanElems_elems _ _ _ (by
      intro x hx
      simp only [List.cons_append, List.mem_cons, List.mem_append, List.not_mem_nil, or_false] at hx
      rcases hx with rfl | rfl | hx | rfl
      · exact .inl rfl
      · exact .inr (h _ (by simp))
      · exact .inr (h _ (by simp [hx]))
      · exact .inl rfl)]
    have hf := filter_elems h
    simp only [List.reverse_nil, List.nil_append, List.cons_append, List.filter_cons, List.filter_append, List.isEmpty_nil, Bool.not_true,
      Bool.false_eq_true, if_false, List.filter_nil, List.append_nil] at hf ⊢
    rw [hf]
    rfl

theorem dir_rel {ws : List Str} {w : Str} (h : ∀ v ∈ ws, Elem v) (hw : '/' ∉ w) :
    dir (join '/' (ws ++ [w])) = if ws = [] then ['.'] else join '/' ws := by
  cases ws with
  | nil =>
    have hd : ∀ l : Str, '/' ∉ l → l.dropWhile (· ≠ '/') = [] := by
      intro l
      induction l with
      | nil => intro _; rfl
      | cons c l ih =>
        intro hl
        simp only [List.mem_cons, not_or] at hl
        have := ih hl.2
        simp only [ne_eq, decide_not] at this ⊢
        simp [Ne.symm hl.1, this]
    rw [List.nil_append, join_one, dir, hd _ (by simpa using hw)]
    rfl
  | cons v vs =>
    rw [dir, join_append _ _ _ (by simp) (by simp), join_one, upto_slash _ _ hw, if_neg (by simp)]
    obtain ⟨h1, h2⟩ := join_elem h (by simp)
    unfold clean
    have hh : (join '/' (v :: vs) ++ ['/']).head? ≠ some '/' := by
      obtain ⟨c, r, hc⟩ := List.exists_cons_of_ne_nil h1
      rw [hc] at h2 ⊢
      simpa using h2
    rw [if_neg (by simp), if_neg hh]
    have hs : split '/' (join '/' (v :: vs) ++ ['/']) = (v :: vs) ++ [[]] := by
      have : join '/' (v :: vs) ++ ['/'] = join '/' ((v :: vs) ++ [[]]) := by
        rw [join_append _ _ _ (by simp) (by simp), join_one]
      rw [this, split_join _ _ (by simp) (by
        intro x hx
        rcases List.mem_append.1 hx with hx | hx
        · exact (h x hx).one
        · simp at hx; simp [hx])]
    rw [hs, cleanElems_elems _ _ _ (by
      intro x hx
      rcases List.mem_append.1 hx with hx | hx
      · exact .inr (h x hx)
      · exact .inl (by simpa using hx))]
    have hf := filter_elems h
    simp only [List.reverse_nil, List.nil_append, List.filter_append, hf]
    simp

theorem trimPrefix_append (a b : Str) : trimPrefix (a ++ b) a = b := by
  unfold trimPrefix
  rw [if_pos (List.isPrefixOf_iff_prefix.2 ⟨b, rfl⟩)]
  simp

theorem apart_append : ∀ as bs : List Str, apart as (as ++ bs) = ([], bs)
  | [], bs => by cases bs <;> rfl
  | a :: as, bs => by simp [apart, apart_append as bs]

theorem apart_spec : ∀ as bs : List Str, ∃ c, as = c ++ (apart as bs).1 ∧ bs = c ++ (apart as bs).2
  | [], bs => ⟨[], by cases bs <;> exact ⟨rfl, rfl⟩⟩
  | a :: as, [] => ⟨[], rfl, rfl⟩
  | a :: as, b :: bs => by
    by_cases h : a = b
    · obtain ⟨c, h1, h2⟩ := apart_spec as bs
      refine ⟨a :: c, ?_, ?_⟩
      · simp only [apart, h, if_true, List.cons_append]
        rw [← h1]
      · simp only [apart, h, if_true, List.cons_append]
        rw [← h2]
    · exact ⟨[], by simp [apart, h], by simp [apart, h]⟩

end Verif.PkgPath
