import Verif.Lemmas.TextStreams
import Verif.Lemmas.Gist
import Verif.Props.Parser

/-!
The parser invents nothing (C67).
-/

namespace Verif.Props.Invents

open Verif.Token Verif.Lexer Verif.Ast Verif.Parser Verif.Spec.Says Verif.Props.Parser

private theorem single {d : Node} {u src : List Char} (h : Stream [d] u) (hs : u.Sublist src) :
    ∃ v, Says d v ∧ v.Sublist src := by
  generalize hds : [d] = ds at h
  cases h with
  | none => cases hds
  | more ds' d' a b h1 h2 =>
    have := congrArg List.getLast? hds
    simp at this
    exact ⟨b, this ▸ h2, (List.sublist_append_right ..).trans hs⟩

/-- C67: if the parser reports no error, its tree can be spelled with characters of the source, in the order of the source:
the brackets, dashes, colons, commas, quotes, the marks of anchors, aliases and tags, and every character of a scalar which
is not blank. -/
theorem spelled_by_source (src : List Char) (omitStream : Bool) (w w' : Pools Lexer) (o : Outcome) (hw : History w)
    (h : Conv (fun f => parseString f omitStream (newTokenizer src) w) (o, w')) (he : o.err = []) :
    (∃ docs u, o.tree = .stream docs ∧ Stream docs u ∧ u.Sublist src) ∨
    (omitStream = true ∧ ∃ u, Says o.tree u ∧ u.Sublist src) := by
  obtain ⟨f, hf⟩ := h
  have e := hf f (Nat.le_refl _)
  simp only [parseString, parseTokenStream, (getAccessor_new hw.ok (newTokenizer src)).1] at e
  cases hp : parse f (newParser (CPAccessor.new (newTokenizer src) {}) w.bufs) with
  | timeout => rw [hp] at e; cases e
  | panic => rw [hp] at e; cases e
  | ok r =>
    rw [hp] at e
    obtain ⟨n, p⟩ := r
    obtain ⟨docs, u, rfl, hu, hs⟩ := parse_reads (lexerOk_new src) hw.ok.2 (by intro t ht; cases ht) hp
    simp only [Res.ok.injEq, Prod.mk.injEq] at e
    obtain ⟨rfl, -⟩ := e
    have hs' : u.Sublist src := hs
    unfold finish at he ⊢
    split at he <;> rename_i hc
    · rw [if_pos hc]
      split
      · rename_i d _ heq
        cases heq
        right
        refine ⟨rfl, ?_⟩
        exact single hu hs'
      · exact .inl ⟨docs, u, rfl, hu, hs'⟩
    · simp only at he
      rw [he] at hc
      exact absurd rfl hc

/-- C67: the texts of the scalars and aliases of the tree, in document order and without blanks, are found in the source in
this order, at different places. -/
theorem texts_from_source (src : List Char) (omitStream : Bool) (w w' : Pools Lexer) (o : Outcome) (hw : History w)
    (h : Conv (fun f => parseString f omitStream (newTokenizer src) w) (o, w')) (he : o.err = []) :
    (gist o.tree).Sublist src := by
  rcases spelled_by_source src omitStream w w' o hw h he with ⟨docs, u, e, h1, h2⟩ | ⟨-, u, h1, h2⟩
  · rw [e]
    exact (gist_stream h1).trans h2
  · exact (gist_says h1).trans h2

/-- C67: the tree has at most as many anchors, aliases, tags, pairs of quotes and mapping entries with a value as there are
marks for them in the source. -/
theorem marks_from_source (src : List Char) (omitStream : Bool) (w w' : Pools Lexer) (o : Outcome) (hw : History w)
    (h : Conv (fun f => parseString f omitStream (newTokenizer src) w) (o, w')) (he : o.err = []) (c : Char) :
    marks c o.tree ≤ src.count c := by
  rcases spelled_by_source src omitStream w w' o hw h he with ⟨docs, u, e, h1, h2⟩ | ⟨-, u, h1, h2⟩
  · rw [e]
    exact Nat.le_trans (marks_stream c h1) (h2.count_le c)
  · exact Nat.le_trans (marks_says c h1) (h2.count_le c)

/-- C67: whatever the parser makes of the source, a character which does not occur in it does not occur in any text of the
tree. -/
theorem no_new_character (src : List Char) (omitStream : Bool) (w w' : Pools Lexer) (o : Outcome) (hw : History w)
    (h : Conv (fun f => parseString f omitStream (newTokenizer src) w) (o, w')) (he : o.err = []) (c : Char)
    (hc : c ∉ src) : c ∉ gist o.tree :=
  fun hm => hc ((texts_from_source src omitStream w w' o hw h he).subset hm)

/-- The hypotheses are met by a source with an anchor, a flow collection, quotes and an alias. -/
example : ∃ w o, Conv (fun f => parseString f true (newTokenizer "k: &x [a b, 'c d']\nl: *x # e".toList) emptyPools) (o, w) ∧
    o.err = [] ∧ gist o.tree = "kabcdlx".toList ∧ marks '&' o.tree = 1 ∧ marks ':' o.tree = 2 ∧ marks '\'' o.tree = 2 := by
  have h : ∃ w, Conv (fun f => parseString f true (newTokenizer "k: &x [a b, 'c d']\nl: *x # e".toList) emptyPools)
      (⟨.mapping [.mappingEntry (.text ['k'] .unknown) (.content (.properties .invalid (.anchor ['x']))
          (.sequence [.text "a b".toList .unknown, .text "c d".toList .single])),
        .mappingEntry (.text ['l'] .unknown) (.alias ['x'])], []⟩, w) := conv_outcome (f := 60) (by krfl)
  obtain ⟨w, h⟩ := h
  exact ⟨w, _, h, rfl, by decide +kernel, by decide +kernel, by decide +kernel, by decide +kernel⟩

/-- A stream of two documents. -/
example : ∃ w o, Conv (fun f => parseString f true (newTokenizer "- a\n- \"b\"\n---\nc".toList) emptyPools) (o, w) ∧
    o.err = [] ∧ gist o.tree = "abc".toList := by
  have h : ∃ w, Conv (fun f => parseString f true (newTokenizer "- a\n- \"b\"\n---\nc".toList) emptyPools)
      (⟨.stream [.sequence [.text ['a'] .unknown, .text ['b'] .double], .text ['c'] .unknown], []⟩, w) :=
    conv_outcome (f := 60) (by krfl)
  obtain ⟨w, h⟩ := h
  exact ⟨w, _, h, rfl, by decide +kernel⟩

/-- What the theorem excludes: a list of two cannot be spelled with the characters of `- a`. -/
example : ¬ ∃ u, Says (.sequence [.text ['a'] .unknown, .text ['a'] .unknown]) u ∧ u.Sublist "- a".toList := by
  rintro ⟨u, h, hs⟩
  have h1 := (gist_says h).trans hs
  revert h1
  decide +kernel

end Verif.Props.Invents
