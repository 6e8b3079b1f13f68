import Verif.Lemmas.LexDirs

/-!
The tokens of texts in block style: documents and the stream.
-/

set_option linter.unusedSimpArgs false
set_option linter.unusedSectionVars false

namespace Verif.Parser

open Verif.Token Verif.Lexer Verif.Ast Verif.PlainTree
open Verif.BlockText (sp Remark Name nameChar tidy tidies absence)

variable {b ty : TokType} {text r w t u v g : List Char} {l : Lexer} {c x : Char} {cx : Ctx} {d z : Bool} {s : Lexer} {p q j i n m : Nat}
variable {e y : Node} {es : List Node} {W : Toks}

/-- A token which is not a marker. -/
def Leads (t : Tok) : Prop := t.type ≠ .directive ∧ t.type ≠ .directiveEnd ∧ t.type ≠ .documentEnd

theorem Scal.leads (h : Scal W p e q) : Leads (W p) := by
  cases h with
  | word h => simp [Leads, h.str]
  | @quoted d _ _ _ h => cases d <;> simp [Leads, h.first, quoteTok]

theorem Atom.leads (h : Atom W p e q) : Leads (W p) := by
  cases h with
  | scal h => exact h.leads
  | ref h => simp [Leads, h.sign]

theorem Core.leads (h : Core W n p e q) : Leads (W p) := by
  rcases h.type with h | h | h | h | h | h <;> simp [Leads, h]

theorem Props.leads {ab : Node} (h : Props W ab p e q) : Leads (W p) := by
  cases h with
  | anchor h => simp [Leads, h.sign]
  | tag h => cases h <;> simp_all [Leads]
  | anchorTag h => simp [Leads, h.sign]
  | tagAnchor h => cases h <;> simp_all [Leads]

theorem Blk.leads (h : Blk W n p e q) : Leads (W p) := by
  cases h with
  | seq h => cases h <;> simp_all [Leads]
  | map h =>
    rcases h.head with ⟨e, r, h⟩ | h
    · exact h.leads
    · simp [Leads, h]

theorem Line.leads (h : Line W p m) (hl : Leads (W (p + m))) : Leads (W p) := by
  cases m with
  | zero => exact hl
  | succ m => simp [Leads, h.sp.head]

theorem Gap.noBom (h : Gap W p q) : (W p).type ≠ .bom := by
  have key : ∀ {j c : Nat}, Sp W p j → Tail W (p + j) c → (W p).type ≠ .bom := by
    intro j c h1 h2
    cases j with
    | succ j => simp [h1.head]
    | zero =>
      cases h2 with
      | none h2 => simp only [isBreakOrEOF, Bool.or_eq_true, decide_eq_true_eq] at h2; rcases h2 with h2 | h2 <;> simp_all
      | text h2 => simp_all
  cases h with
  | @here _ j h1 h2 =>
    cases j with
    | zero => exact h2.2.2.2.2.2
    | succ j => simp [h1.head]
  | line h1 h2 => exact key h1 h2
  | last h1 h2 => exact key h1 h2

theorem explicit_soft (h : BlockText.Explicit z u e) (hz : z = true → r = []) : Soft (u ++ r) := by
  cases h with
  | leaf h => exact leaf_soft h
  | null h => exact (eol_parts h hz).1
  | under h => rw [List.append_assoc]; exact (eol_parts h (by simp)).1
  | underProps h => rw [List.append_assoc]; exact sep_soft h

theorem Front.explicit (h : Front s newCtx p b (u ++ r)) (hs : solW (toks s) p = false) (hu : BlockText.Explicit z u e)
    (hz : z = true → r = []) (hr : LineStart 1 r) : ∃ q e', Doc (toks s) p e' q ∧ tidy e' = e ∧ After s q r := by
  cases hu with
  | leaf hl =>
    obtain ⟨q, e', g1, g2, g3⟩ := h.leaf hs hl hz (hr.mono (by omega))
    exact ⟨q, e', .root (.leaf g1), g2, g3⟩
  | null hl =>
    obtain ⟨q, g1, g2⟩ := h.eol hl hz hr .block
    exact ⟨q, _, .null g1, by simp [tidy, Node.null], g2⟩
  | under hw hl =>
    simp only [List.append_assoc] at h
    obtain ⟨q1, g1, g2⟩ := h.eol hw (by simp) (lineStart' (block_visible hl)) .block
    obtain ⟨m1, b', m2, m3⟩ := g2.enter' (block_visible hl)
    obtain ⟨q, e', k1, k2, k3⟩ := front_block hl hz (hr.mono (by omega)) m2 m3
    exact ⟨q, e', .root (.lines h.pos g1 m1 k1), k2, k3⟩
  | underProps hu hv hw hl =>
    simp only [List.append_assoc] at h
    obtain ⟨q1, b1, hb1, g1, h1⟩ := h.sep' hu (props_visible hv) .block hs
    obtain ⟨q2, cx, hc, h2, hs2, g2⟩ := h1.props hb1 hv (eol_parts hw (by simp)).1
    obtain ⟨y', g2, hy⟩ := g2 .invalid rfl
    obtain ⟨q3, g3, h3⟩ := h2.eol hw (by simp) (lineStart' (block_visible hl)) hc
    obtain ⟨m1, b', m2, m3⟩ := h3.enter' (block_visible hl)
    obtain ⟨q, e', k1, k2, k3⟩ := front_block hl hz (hr.mono (by omega)) m2 m3
    exact ⟨q, _, .root (.props g1 g2 g3 m1 k1), by simp [tidy, hy, k2], k3⟩

theorem After.implicit (h : After s p (u ++ r)) (hu : BlockText.Implicit z u e)
    (hz : z = true → r = []) (hr : LineStart 1 r) : ∃ j q e', Line (toks s) p j ∧ Leads (toks s p) ∧ Root (toks s) p e' q ∧ tidy e' = e ∧
      After s q r := by
  have hp := h.pos
  cases hu with
  | block hl =>
    simp only [List.append_assoc] at h
    obtain ⟨m1, b', m2, m3⟩ := h.enter' (block_visible hl)
    obtain ⟨q, e', k1, k2, k3⟩ := front_block hl hz (hr.mono (by omega)) m2 m3
    exact ⟨_, q, e', m1, m1.leads k1.leads, .start hp m1 k1, k2, k3⟩
  | @atom m v w _ hv hw =>
    simp only [List.append_assoc] at h
    obtain ⟨m1, b', m2, m3⟩ := h.enter' (core_visible hv)
    obtain ⟨q2, b2, g2, h2⟩ := m3.core m2 hv (eol_parts hw hz).2
    obtain ⟨q3, g3, h3⟩ := h2.eol hw hz hr .block
    have hsep : Sep (toks s) 0 p (p + m) := .start hp m1.sol (.here m1.sp m1.begins) m1 (Nat.zero_le _)
    exact ⟨_, q3, _, m1, m1.leads g2.leads, .leaf (.atom hsep g2 g3), core_tidy hv, h3⟩
  | @props m v u' v' w x e hv hu' hv' hw =>
    simp only [List.append_assoc] at h
    obtain ⟨m1, b', m2, m3⟩ := h.enter' (props_visible hv)
    obtain ⟨q2, cx, hc, h2, hs2, g2⟩ := m3.props m2 hv (sep_soft hu')
    obtain ⟨y', g2, hy⟩ := g2 .invalid rfl
    obtain ⟨q3, b3, hb3, g3, h3⟩ := h2.sep' hu' (body_visible hv') hc hs2
    obtain ⟨q4, b4, g4, h4⟩ := h3.body hb3 hv' (eol_parts hw hz).2
    obtain ⟨q5, g5, h5⟩ := h4.eol hw hz hr .block
    have hsep : Sep (toks s) 0 p (p + m) := .start hp m1.sol (.here m1.sp m1.begins) m1 (Nat.zero_le _)
    exact ⟨_, q5, _, m1, m1.leads g2.leads, .leaf (.props hsep g2 g3 g4 g5), by simp [tidy, hy, body_tidy hv'], h5⟩
  | @lit m m' v t hm1 hv =>
    simp only [List.append_assoc] at h
    obtain ⟨m1, b', m2, m3⟩ := h.enter' (literal_visible hv)
    obtain ⟨q2, g2, h2⟩ := m3.literal m2 hv (Nat.zero_le _) hz (hr.mono (by omega))
    have hsep : Sep (toks s) 0 p (p + m) := .start hp m1.sol (.here m1.sp m1.begins) m1 (Nat.zero_le _)
    exact ⟨_, q2, _, m1, m1.leads (by rcases g2.type with h | h <;> simp [Leads, h]), .leaf (.lit hsep (Nat.zero_le _) hm1 g2), by simp [tidy], h2⟩
  | @propsLit m m' v u' w t x hv hu' hm1 hw =>
    simp only [List.append_assoc] at h
    obtain ⟨m1, b', m2, m3⟩ := h.enter' (props_visible hv)
    obtain ⟨q2, cx, hc, h2, hs2, g2⟩ := m3.props m2 hv (sep_soft hu')
    obtain ⟨y', g2, hy⟩ := g2 .invalid rfl
    obtain ⟨q3, b3, hb3, g3, h3⟩ := h2.sep' hu' (literal_visible hw) hc hs2
    obtain ⟨q4, g4, h4⟩ := h3.literal hb3 hw (Nat.zero_le _) hz (hr.mono (by omega))
    have hsep : Sep (toks s) 0 p (p + m) := .start hp m1.sol (.here m1.sp m1.begins) m1 (Nat.zero_le _)
    exact ⟨_, q4, _, m1, m1.leads g2.leads, .leaf (.propsLit hsep g2 g3 (Nat.zero_le _) hm1 g4), by simp [tidy, hy], h4⟩
  | @underProps m m' v w u x e hv hw hl =>
    simp only [List.append_assoc] at h
    obtain ⟨m1, b', m2, m3⟩ := h.enter' (props_visible hv)
    obtain ⟨q2, cx, hc, h2, hs2, g2⟩ := m3.props m2 hv (eol_parts hw (by simp)).1
    obtain ⟨y', g2, hy⟩ := g2 .invalid rfl
    obtain ⟨q3, g3, h3⟩ := h2.eol hw (by simp) (lineStart' (block_visible hl)) hc
    obtain ⟨n1, b'', n2, n3⟩ := h3.enter' (block_visible hl)
    obtain ⟨q, e', k1, k2, k3⟩ := front_block hl hz (hr.mono (by omega)) n2 n3
    have hsep : Sep (toks s) 0 p (p + m) := .start hp m1.sol (.here m1.sp m1.begins) m1 (Nat.zero_le _)
    exact ⟨_, q, _, m1, m1.leads g2.leads, .props hsep g2 g3 n1 k1, by simp [tidy, hy, k2], k3⟩

theorem implicit_start (h : BlockText.Implicit z u e) : ∃ k, LineStart k (u ++ r) := by
  cases h with
  | lit _ h => rw [List.append_assoc]; exact ⟨_, lineStart' (literal_visible h)⟩
  | propsLit h => rw [List.append_assoc, List.append_assoc]; exact ⟨_, lineStart' (props_visible h)⟩
  | block h => rw [List.append_assoc]; exact ⟨_, lineStart' (block_visible h)⟩
  | atom h => rw [List.append_assoc, List.append_assoc]; exact ⟨_, lineStart' (core_visible h)⟩
  | props h => rw [List.append_assoc, List.append_assoc]; exact ⟨_, lineStart' (props_visible h)⟩
  | underProps h => rw [List.append_assoc, List.append_assoc]; exact ⟨_, lineStart' (props_visible h)⟩

theorem docs_start (h : BlockText.Docs u es) : LineStart 1 u := by
  cases h with
  | done => exact .inl rfl
  | explicit => exact .inr ⟨0, _, _, rfl, by simp [Visible], by omega⟩
  | suffix => exact .inr ⟨0, _, _, rfl, by simp [Visible], by omega⟩

theorem first_start (h : BlockText.First u es) : ∃ k, LineStart k u := by
  cases h with
  | done => exact ⟨1, .inl rfl⟩
  | explicit => exact ⟨1, .inr ⟨0, _, _, rfl, by simp [Visible], by omega⟩⟩
  | implicit h => exact implicit_start h
  | directives h => exact ⟨1, directives_start h⟩

theorem next_start (h : BlockText.Next u es) : ∃ k, LineStart k u := by
  cases h with
  | first h => exact first_start h
  | suffix => exact ⟨1, .inr ⟨0, _, _, rfl, by simp [Visible], by omega⟩⟩

theorem After.dashes (h : After s p ('-' :: '-' :: '-' :: (u ++ r))) (hu : BlockText.Explicit z u e)
    (hz : z = true → r = []) (hr : LineStart 1 r) : ∃ q e', Line (toks s) p 0 ∧ ((toks s p).type = .directiveEnd ∧ Calm (toks s) p) ∧
      Doc (toks s) (p + 1) e' q ∧ tidy e' = e ∧ After s q r := by
  obtain ⟨m1, b', m2, m3⟩ := After.enter (n := 0) h (by simp [Visible])
  obtain ⟨g1, -, g3⟩ := m3.emit (emits_dashes (explicit_soft hu hz).blank m2) (by simp [Plainly])
  obtain ⟨q, e', k1, k2, k3⟩ := g3.explicit (solW_not m3.pos (fun hh => by have hh : (toks s (p + 0)).type = _ := hh; rw [g1] at hh; cases hh) (fun hh => by have hh : (toks s (p + 0)).type = _ := hh; rw [g1] at hh; cases hh)) hu hz hr
  exact ⟨q, e', m1, ⟨g1, g3.calm⟩, k1, k2, k3⟩

theorem After.dots (h : After s p ('.' :: '.' :: '.' :: (u ++ r))) (hu : BlockText.Eol z u)
    (hz : z = true → r = []) {k : Nat} (hr : LineStart k r) : ∃ q, Line (toks s) p 0 ∧ ((toks s p).type = .documentEnd ∧ Calm (toks s) p) ∧
      Eol (toks s) (p + 1) q ∧ After s q r := by
  obtain ⟨m1, b', m2, m3⟩ := After.enter (n := 0) h (by simp [Visible])
  obtain ⟨g1, -, g3⟩ := m3.emit (emits_dots (eol_parts hu hz).1.blank m2) (by simp [Plainly])
  obtain ⟨q, k1, k2⟩ := g3.eol hu hz hr .block
  exact ⟨q, m1, ⟨g1, g3.calm⟩, k1, k2⟩

theorem Line.notEof (h : Line W q j) : (W q).type ≠ .eof := by
  cases j with
  | zero => exact h.begins.2.2.2.1
  | succ j => simp [h.sp.head]

theorem Gap.notStop (h : Gap W p q) (hp : 1 ≤ p) (hs : solW W p = true) (he : (W q).type = .eof) : solW W q = false := by
  rcases h.then hp hs with ⟨_, h⟩ | h
  · exact absurd he h.notEof
  · exact h.sol

theorem Eol.notStop (h : Eol W p q) (hp : 1 ≤ p) (he : (W q).type = .eof) : solW W q = false := by
  rcases h.then hp with ⟨_, h⟩ | h
  · exact absurd he h.notEof
  · exact h.sol

mutual
theorem front_docs : ∀ {u : List Char} {es : List Node}, BlockText.Docs u es → ∀ {s : Lexer} {q : Nat}, After s q u →
    ∃ es', Docs (toks s) q es' ∧ tidies es' = es ∧ ∀ i, Fit (toks s).tok i
  | _, _, .done => fun h => by
    cases h with
    | done h1 h2 h3 h4 => exact ⟨[], .done h1 h2 h3, rfl, h4⟩
    | stop h1 h2 h3 h4 h5 => exact ⟨[], .stop h1 h2 h3 h4, rfl, h5⟩
    | line h => exact absurd rfl h
  | _, _, .explicit hu hz hv => fun h => by
    obtain ⟨q, e', g1, g2, g3, g4, g5⟩ := h.dashes hu hz (docs_start hv)
    obtain ⟨es', k1, k2, k3⟩ := front_docs hv g5
    exact ⟨e' :: es', .expl h.pos g1 g2 g3 k1, by simp [tidies, g4, k2], k3⟩
  | _, _, .suffix hu hz hv => fun h => by
    obtain ⟨q, g1, g2, g3, g4⟩ := h.dots hu hz (next_start hv).choose_spec
    obtain ⟨es', k1, k2, k3⟩ := front_next hv g4 (g3.notStop (by omega))
    refine ⟨es', ?_, k2, k3⟩
    rcases k1 with ⟨k1, k4⟩ | ⟨q', k4, k1, k5⟩
    · exact .suffix h.pos (.one g1 g2 g3) k4 k1
    · exact .suffix h.pos (.more g1 g2 g3 k4) k5 k1

theorem front_next : ∀ {u : List Char} {es : List Node}, BlockText.Next u es → ∀ {s : Lexer} {q : Nat}, After s q u →
    ((toks s q).type = .eof → solW (toks s) q = false) → ∃ es', (First (toks s) q es' ∧ (toks s q).type ≠ .documentEnd ∨
        ∃ q', Sufs (toks s) q q' ∧ First (toks s) q' es' ∧ (toks s q').type ≠ .documentEnd) ∧
      tidies es' = es ∧ ∀ i, Fit (toks s).tok i
  | _, _, .first hf => fun h hd => by
    obtain ⟨es', k1, k2, k3, k4⟩ := front_first hf h hd
    exact ⟨es', .inl ⟨k1, k2⟩, k3, k4⟩
  | _, _, .suffix hu hz hv => fun h hd => by
    obtain ⟨q, g1, g2, g3, g4⟩ := h.dots hu hz (next_start hv).choose_spec
    obtain ⟨es', k1, k2, k3⟩ := front_next hv g4 (g3.notStop (by omega))
    refine ⟨es', .inr ?_, k2, k3⟩
    rcases k1 with ⟨k1, k4⟩ | ⟨q', k4, k1, k5⟩
    · exact ⟨q, .one g1 g2 g3, k1, k4⟩
    · exact ⟨q', .more g1 g2 g3 k4, k1, k5⟩

theorem front_first : ∀ {u : List Char} {es : List Node}, BlockText.First u es → ∀ {s : Lexer} {q : Nat}, After s q u →
    ((toks s q).type = .eof → solW (toks s) q = false) → ∃ es', First (toks s) q es' ∧ (toks s q).type ≠ .documentEnd ∧ tidies es' = es ∧ ∀ i, Fit (toks s).tok i
  | _, _, .done => fun h hd => by
    cases h with
    | done h1 h2 h3 h4 => exact ⟨[], .done h2 h3, by simp [h2.eof], rfl, h4⟩
    | stop h1 h2 h3 => rw [hd h2] at h3; cases h3
    | line h => exact absurd rfl h
  | _, _, .explicit hu hz hv => fun h hd => by
    obtain ⟨q, e', g1, g2, g3, g4, g5⟩ := h.dashes hu hz (docs_start hv)
    obtain ⟨es', k1, k2, k3⟩ := front_docs hv g5
    exact ⟨e' :: es', .expl g1 g2 g3 k1, by simp [g2.1], by simp [tidies, g4, k2], k3⟩
  | _, _, .implicit hu hz hv => fun h hd => by
    obtain ⟨j, q, e', g1, g2, g3, g4, g5⟩ := h.implicit hu hz (docs_start hv)
    obtain ⟨es', k1, k2, k3⟩ := front_docs hv g5
    exact ⟨e' :: es', .bare g1 g2.1 g2.2.1 g3 k1, g2.2.2, by simp [tidies, g4, k2], k3⟩
  | _, _, .directives hd hu hz hv => fun h _ => by
    obtain ⟨m1, q0, m2, m3⟩ := After.directives hd (k := 1) (.inr ⟨0, _, _, rfl, by simp [Visible], by omega⟩) h
    obtain ⟨q, e', -, g2, g3, g4, g5⟩ := m3.dashes hu hz (docs_start hv)
    obtain ⟨es', k1, k2, k3⟩ := front_docs hv g5
    exact ⟨e' :: es', .dirs m1 m2 g2 g3 k1, by simp [m2.sign], by simp [tidies, g4, k2], k3⟩
end

/-- The tokens of a stream in block style. -/
theorem front_stream (h : BlockText.Stream text es) : ∃ es', Stream (toks (newTokenizer text)) es' ∧ tidies es' = es ∧
    Flat (toks (newTokenizer text)) := by
  cases h with
  | mk hg hz hu =>
    obtain ⟨q, g1, g2⟩ := (front_start _).gap hg hz (first_start hu).choose_spec rfl rfl
    obtain ⟨es', k1, -, k2, k3⟩ := front_first hu g2 (g1.notStop (Nat.le_refl _) rfl)
    exact ⟨es', ⟨q, g1.noBom, g1, k1⟩, k2, ⟨⟨fun i => (k3 i).1, fun i => (k3 i).2.1, fun i => (k3 i).2.2, toks_inj _⟩, fun _ => toks_brk, rfl, rfl⟩⟩

end Verif.Parser
