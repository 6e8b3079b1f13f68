import Verif.Lemmas.Lexer
import Verif.Lemmas.RuneAccessor

/-!
C03, C04, C05: the tokenizer (`engines/yayamls/lexer`).

`tokens fuel (newTokenizer src) sched` is a client which calls `Next` once per element of the schedule `sched`, after
setting the raw mode to that element (`SetRawMode`/`UnsetRawMode`); `none` would mean that a call does not return.
-/

namespace Verif.Props.Lexer

open Verif.Lexer Verif.Token Verif.Spec.Position

/-- The texts of tokens, concatenated. -/
def texts (ts : List Tok) : List Char := (ts.map Tok.origin).flatten

/-- The tokens before the first end-of-input token. -/
def beforeEOF (ts : List Tok) : List Tok := ts.takeWhile (fun t => t.type ≠ .eof)

theorem chain_texts {p : Pos} {text : List Char} {ts : List Tok} (h : Chain p text ts) :
    (∃ tail, texts (beforeEOF ts) ++ tail = text) ∧
      ((∃ t ∈ ts, t.type = .eof) → texts (beforeEOF ts) = text) := by
  induction h with
  | nil p text => exact ⟨⟨text, rfl⟩, by simp⟩
  | cons p t q text ts hp hcut heof h ih =>
    by_cases ht : t.type = .eof
    · have h0 := heof.1 ht
      simp [beforeEOF, ht, texts, h0]
    · obtain ⟨⟨tail, htail⟩, ih2⟩ := ih
      have hb : beforeEOF (t :: ts) = t :: beforeEOF ts := by simp [beforeEOF, ht]
      constructor
      · refine ⟨tail, ?_⟩
        rw [hb, ← htail]
        simp [texts]
      · rintro ⟨t', hm, ht'⟩
        simp only [List.mem_cons] at hm
        rcases hm with rfl | hm
        · exact absurd ht' ht
        · rw [hb, ← ih2 ⟨t', hm, ht'⟩]
          simp [texts]

/-- **C03.** The texts of the tokens up to the first end-of-input token are the source; before the end-of-input token
is reached they are a prefix of it.  For every source and every raw mode schedule. -/
theorem tokenisation_lossless (src : List Char) (sched : List Bool) (fuel : Nat) (hf : src.length + 1 ≤ fuel) :
    ∃ ts, tokens fuel (newTokenizer src) sched = some ts ∧ ts.length = sched.length ∧
      texts (beforeEOF ts) <+: src ∧
      ((∃ t ∈ ts, t.type = .eof) → texts (beforeEOF ts) = src) := by
  obtain ⟨ts, h1, h2, h3⟩ := tokens_chain fuel sched (newTokenizer src) ⟨1, 0⟩ src ⟨rfl, rfl⟩ hf
  obtain ⟨⟨tail, ht⟩, h5⟩ := chain_texts h3
  exact ⟨ts, h1, h2, ⟨tail, ht⟩, h5⟩

theorem chain_eof_final {p : Pos} {text : List Char} {ts : List Tok} (h : Chain p text ts) :
    (text = [] → ∀ t ∈ ts, t.type = .eof) ∧
      (text.length < ts.length → ∃ t : Tok, ts[text.length]? = some t ∧ t.type = .eof) ∧
      (∀ (i j : Nat) (t : Tok), i ≤ j → ts[i]? = some t → t.type = .eof →
        ∀ t' : Tok, ts[j]? = some t' → t'.type = .eof) := by
  induction h with
  | nil p text => simp
  | cons p t q text ts hp hcut heof h ih =>
    obtain ⟨ih1, ih2, ih3⟩ := ih
    have hfin : ∀ (i j : Nat) (t₁ : Tok), i ≤ j → (t :: ts)[i]? = some t₁ → t₁.type = .eof → ∀ t' : Tok, (t :: ts)[j]? = some t' →
        t'.type = .eof := by
      intro i j t₁ hij hi he t' hj
      cases i with
      | zero =>
        simp at hi
        subst hi
        have h0 := heof.1 he
        cases j with
        | zero => simp at hj; subst hj; exact he
        | succ j =>
          simp at hj h0
          exact ih1 h0.2 t' (List.mem_of_getElem? hj)
      | succ i =>
        cases j with
        | zero => omega
        | succ j =>
          simp at hi hj
          exact ih3 i j t₁ (by omega) hi he t' hj
    refine ⟨?_, ?_, hfin⟩
    · intro h0 t' hm
      simp only [List.mem_cons] at hm
      rcases hm with rfl | hm
      · exact heof.2 h0
      · exact ih1 (by simp at h0; exact h0.2) t' hm
    · intro hlt
      by_cases ht : t.type = .eof
      · have h0 := heof.1 ht
        rw [h0]; exact ⟨t, rfl, ht⟩
      · have hne : t.origin ≠ [] := fun h => ht (hp.empty.1 h)
        have hpos : 0 < t.origin.length := by cases ho : t.origin <;> simp_all
        simp only [List.length_append, List.length_cons] at hlt
        obtain ⟨t', h1, h2⟩ := ih2 (by omega)
        have hs : (t :: ts)[text.length + 1]? = some t' := by simpa using h1
        obtain ⟨t'', h3⟩ : ∃ t'' : Tok, (t :: ts)[(t.origin ++ text).length]? = some t'' := by
          rw [List.getElem?_eq_getElem (by simp; omega)]; exact ⟨_, rfl⟩
        exact ⟨t'', h3, hfin _ _ _ (by simp; omega) hs h2 _ h3⟩

/-- **C04.** Every call returns (with `src.length + 1` rounds of the loop at most), `src.length + 1` calls reach the
end-of-input token, and after it only end-of-input tokens follow. -/
theorem tokenisation_terminates (src : List Char) (sched : List Bool) (fuel : Nat) (hf : src.length + 1 ≤ fuel) :
    ∃ ts, tokens fuel (newTokenizer src) sched = some ts ∧ ts.length = sched.length ∧
      (src.length < sched.length → ∃ t : Tok, ts[src.length]? = some t ∧ t.type = .eof) ∧
      (∀ (i j : Nat) (t t' : Tok), i ≤ j → ts[i]? = some t → ts[j]? = some t' → t.type = .eof → t'.type = .eof) := by
  obtain ⟨ts, h1, h2, h3⟩ := tokens_chain fuel sched (newTokenizer src) ⟨1, 0⟩ src ⟨rfl, rfl⟩ hf
  obtain ⟨-, h4, h5⟩ := chain_eof_final h3
  exact ⟨ts, h1, h2, fun h => h4 (by omega), fun i j t t' hij hi hj he => h5 i j t hij hi he t' hj⟩

/-- **C04**: the result of a call does not depend on the bound on the rounds of the loop. -/
theorem next_fuel_irrelevant (fuel k : Nat) (l : Lexer) (x : Tok × Lexer) (h : nextFuel fuel l = some x) :
    nextFuel (fuel + k) l = some x := nextFuel_mono fuel k l x h

theorem take_prefix (i : Nat) : ∀ ts : List Tok, (∀ t' ∈ ts.take i, t'.type ≠ .eof) → ts.take i <+: beforeEOF ts := by
  induction i with
  | zero => intro ts _; simp
  | succ i ih =>
    intro ts h
    cases ts with
    | nil => simp [beforeEOF]
    | cons t ts =>
      have ht : t.type ≠ .eof := h t (by simp)
      have : beforeEOF (t :: ts) = t :: beforeEOF ts := by simp [beforeEOF, ht]
      rw [this]
      simp only [List.take_succ_cons, List.prefix_cons_inj]
      exact ih ts (fun t' ht' => h t' (by simp [ht']))

theorem chain_positions {p : Pos} {text : List Char} {ts : List Tok} (h : Chain p text ts) :
    ∀ (i : Nat) (t : Tok), ts[i]? = some t →
      ((∀ t' ∈ ts.take i, t'.type ≠ .eof) →
        t.start = ⟨(advance p (texts (ts.take i))).row, (advance p (texts (ts.take i))).col + 1⟩ ∧
        (t.type ≠ .eof → t.fin = ⟨t.start.row, t.start.col + (t.origin.length - 1)⟩)) := by
  induction h with
  | nil p text => simp
  | cons p t q text ts hp hcut heof h ih =>
    intro i t₁ hi hne
    cases i with
    | zero =>
      simp at hi
      subst hi
      refine ⟨by simpa [texts, advance] using hp.start, ?_⟩
      intro hn
      have hf := hp.fin
      rw [if_neg hn] at hf
      have : t.origin ≠ [] := fun h => hn (hp.empty.1 h)
      have hpos : 0 < t.origin.length := by cases ho : t.origin <;> simp_all
      rw [hf, hp.start]
      simp; omega
    | succ i =>
      simp at hi
      have ht : t.type ≠ .eof := hne t (by simp)
      have := ih i t₁ hi (fun t' ht' => hne t' (by simp [ht']))
      have hq : q = advance p t.origin := by
        have := hp.next; rw [if_neg ht] at this; exact this
      refine ⟨?_, this.2⟩
      have hcut' : NoCut t.origin (texts (ts.take i)) := by
        obtain ⟨tail, htail⟩ := (chain_texts h).1
        rintro ⟨h1, h2⟩
        apply hcut
        refine ⟨h1, ?_⟩
        have hpre : ∃ tl, text = texts (ts.take i) ++ tl := by
          have : ts.take i <+: beforeEOF ts := take_prefix i ts (fun t' ht' => hne t' (by simp [ht']))
          obtain ⟨u, hu⟩ := this
          refine ⟨texts u ++ tail, ?_⟩
          rw [← htail, ← hu]
          simp [texts]
        obtain ⟨tl, htl⟩ := hpre
        rw [htl]
        cases hx : texts (ts.take i) with
        | nil => simp [hx] at h2
        | cons a b => simpa [hx] using h2
      rw [this.1, hq]
      have hte : texts ((t :: ts).take (i + 1)) = t.origin ++ texts (ts.take i) := by simp [texts]
      rw [hte, advance_append p _ _ hcut']

/-- **C05.** The position of every token is the row and column of its text in the source: it starts one column after
the position reached by all text before it, and ends at its last rune. -/
theorem token_positions_exact (src : List Char) (sched : List Bool) (fuel : Nat) (hf : src.length + 1 ≤ fuel) :
    ∃ ts, tokens fuel (newTokenizer src) sched = some ts ∧
      ∀ (i : Nat) (t : Tok), ts[i]? = some t → (∀ t' ∈ ts.take i, t'.type ≠ .eof) →
        t.start = ⟨(after (texts (ts.take i))).row, (after (texts (ts.take i))).col + 1⟩ ∧
        (t.type ≠ .eof → t.fin = ⟨t.start.row, t.start.col + (t.origin.length - 1)⟩) := by
  obtain ⟨ts, h1, h2, h3⟩ := tokens_chain fuel sched (newTokenizer src) ⟨1, 0⟩ src ⟨rfl, rfl⟩ hf
  exact ⟨ts, h1, fun i t hi hne => chain_positions h3 i t hi hne⟩

theorem advance_ge (p : Pos) (a : List Char) : p = advance p a ∨ Before p (advance p a) := by
  fun_induction advance p a with
  | case1 p => exact .inl rfl
  | case2 p r ih =>
    right; rcases ih with h | h
    · rw [← h]; left; simp
    · left; rcases h with h | h <;> simp at h <;> omega
  | case3 p r hr ih =>
    right; rcases ih with h | h
    · rw [← h]; left; simp
    · left; rcases h with h | h <;> simp at h <;> omega
  | case4 p r ih =>
    right; rcases ih with h | h
    · rw [← h]; left; simp
    · left; rcases h with h | h <;> simp at h <;> omega
  | case5 p c r h1 h2 h3 ih =>
    right; rcases ih with h | h
    · rw [← h]; right; simp
    · rcases h with h | h
      · left; exact h
      · right; simp at h; omega

theorem before_trans {a b c : Pos} (h1 : Before a b) (h2 : Before b c) : Before a c := by
  unfold Before at *; omega

theorem advance_row (p : Pos) (a : List Char) :
    advance p a = ⟨p.row, p.col + a.length⟩ ∨ p.row < (advance p a).row := by
  have hge : ∀ (p : Pos) (a : List Char), p.row ≤ (advance p a).row := by
    intro p a
    rcases advance_ge p a with h | h | h
    · rw [← h]; exact Nat.le_refl _
    · omega
    · omega
  fun_induction advance p a with
  | case1 p => left; rfl
  | case2 p r ih => right; have := hge ⟨p.row + 1, 0⟩ r; simp at this; omega
  | case3 p r hr ih => right; have := hge ⟨p.row + 1, 0⟩ r; simp at this; omega
  | case4 p r ih => right; have := hge ⟨p.row + 1, 0⟩ r; simp at this; omega
  | case5 p c r h1 h2 h3 ih =>
    rcases ih with h | h
    · left; rw [h]; simp; omega
    · right; exact h

/-- A token starts after the reader's position, ends not before it starts, and leaves the reader not before its
end. -/
theorem placed_order {p q : Pos} {t : Tok} (h : Placed p t q) :
    Before p t.start ∧ (t.start = t.fin ∨ Before t.start t.fin) ∧ (t.fin = q ∨ Before t.fin q) := by
  have hs := h.start
  refine ⟨by rw [hs]; right; simp, ?_, ?_⟩
  · by_cases ht : t.type = .eof
    · left; rw [h.fin, if_pos ht]
    · have hf := h.fin
      rw [if_neg ht] at hf
      have : t.origin ≠ [] := fun h' => ht (h.empty.1 h')
      have hpos : 0 < t.origin.length := by cases ho : t.origin <;> simp_all
      rw [hs, hf]
      by_cases h1 : t.origin.length = 1
      · left; simp [h1]
      · right; right; simp; omega
  · by_cases ht : t.type = .eof
    · left; rw [h.fin, h.next, if_pos ht, if_pos ht]
    · have hf := h.fin
      have hn := h.next
      rw [if_neg ht] at hf hn
      rcases advance_row p t.origin with h' | h'
      · left; rw [hf, hn, h']
      · right; left; rw [hf, hn]; exact h'

theorem chain_order {p : Pos} {text : List Char} {ts : List Tok} (h : Chain p text ts) :
    (∀ t ∈ ts, Before p t.start ∧ (t.start = t.fin ∨ Before t.start t.fin)) ∧
      ts.Pairwise (fun t t' => Before t.fin t'.start) := by
  induction h with
  | nil p text => simp
  | cons p t q text ts hp hcut heof h ih =>
    obtain ⟨h1, h2, h3⟩ := placed_order hp
    have hpq : Before p q := by
      rcases h2 with h2 | h2 <;> rcases h3 with h3 | h3
      · rw [h2, h3] at h1; exact h1
      · rw [h2] at h1; exact before_trans h1 h3
      · rw [← h3]; exact before_trans h1 h2
      · exact before_trans h1 (before_trans h2 h3)
    refine ⟨?_, ?_⟩
    · intro t' hm
      simp only [List.mem_cons] at hm
      rcases hm with rfl | hm
      · exact ⟨h1, h2⟩
      · exact ⟨before_trans hpq (ih.1 t' hm).1, (ih.1 t' hm).2⟩
    · rw [List.pairwise_cons]
      refine ⟨?_, ih.2⟩
      intro t' hm
      rcases h3 with h3 | h3
      · rw [h3]; exact (ih.1 t' hm).1
      · exact before_trans h3 (ih.1 t' hm).1

/-- **C05.** No token starts after it ends, and every token ends before each later one starts (also after the
end-of-input token was reached). -/
theorem token_positions_increase (src : List Char) (sched : List Bool) (fuel : Nat) (hf : src.length + 1 ≤ fuel) :
    ∃ ts, tokens fuel (newTokenizer src) sched = some ts ∧
      (∀ t ∈ ts, t.start = t.fin ∨ Before t.start t.fin) ∧
      ts.Pairwise (fun t t' => Before t.fin t'.start) := by
  obtain ⟨ts, h1, h2, h3⟩ := tokens_chain fuel sched (newTokenizer src) ⟨1, 0⟩ src ⟨rfl, rfl⟩ hf
  have := chain_order h3
  exact ⟨ts, h1, fun t ht => (this.1 t ht).2, this.2⟩

/-- a source with a `CR LF`, a flow sequence, and the raw mode switched on for the last calls. -/
example :
    (tokens 20 (newTokenizer "a:\r\n- [b]".toList)
        [false, false, false, false, false, false, true, false, true, true, true]).map
      (fun ts => ts.map (fun t => (String.ofList t.origin, t.start.row, t.start.col))) =
      some [("a", 1, 1), (":", 1, 2), ("\r\n", 1, 3), ("-", 2, 1), (" ", 2, 2), ("[", 2, 3), ("b]", 2, 4),
        ("", 2, 6), ("", 2, 7), ("", 2, 8), ("", 2, 9)] := by decide +kernel

/-- The rune accessor of the tokenizer (a checkpointing accessor over the rune stream) simulates the list of remaining
runes used in the model of the tokenizer: there is a relation, true of the initial states, such that `Next` and
`lookahead` return the same runes and keep the relation; no index panic happens. -/
theorem rune_accessor_refines (src : List Char) (zero : Option Char) :
    ∃ R : CPAccessor.Accessor (List Char) (Option Char) → List Char → Prop,
      R (CPAccessor.new src zero) src ∧
      (∀ a rest, R a rest →
        a.panicked = false ∧
        (CPAccessor.next raNext a).1 = (raNext rest).1 ∧ R (CPAccessor.next raNext a).2 (raNext rest).2 ∧
        ∀ n, (accLookahead raNext n a).1 = lookahead n rest ∧ R (accLookahead raNext n a).2 rest) := by
  refine ⟨Represents src, represents_new src zero, ?_⟩
  intro a rest h
  have h1 := represents_next h
  refine ⟨?_, h1.1, h1.2, fun n => represents_lookahead h n⟩
  obtain ⟨a0, c, hrel, -, rfl, -⟩ := h
  exact hrel.np

end Verif.Props.Lexer
