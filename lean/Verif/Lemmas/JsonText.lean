import Verif.Spec.Json
import Verif.Spec.BlockText

/-!
JSON texts are YAML texts.
-/

namespace Verif.Json

open Verif.Ast Verif.PlainTree

variable {t u v g g' : List Char} {j : Json} {k : Part} {n : Nat}

/-- The characters of numbers. -/
def numChar (c : Char) : Bool := c.isDigit || c = '.' || c = 'e' || c = 'E' || c = '+' || c = '-'

theorem digit_numChar {c : Char} (h : c.isDigit = true) : numChar c = true := by simp [numChar, h]

theorem Digits.last (h : Digits t) : ∃ s c, t = s ++ [c] ∧ c.isDigit = true := by
  obtain ⟨s, c, rfl⟩ : ∃ s c, t = s ++ [c] := ⟨t.dropLast, t.getLast h.1, (List.dropLast_concat_getLast h.1).symm⟩
  exact ⟨s, c, rfl, h.2 c (by simp)⟩

theorem Unsigned.parts (h : Unsigned t) : (∀ c ∈ t, numChar c = true) ∧ (∃ c r, t = c :: r ∧ c.isDigit = true) ∧
    ∃ s c, t = s ++ [c] ∧ c.isDigit = true := by
  have first : ∀ {t : List Char}, Digits t → ∃ c r, t = c :: r ∧ c.isDigit = true := by
    intro t h
    cases t with
    | nil => exact absurd rfl h.1
    | cons c r => exact ⟨c, r, rfl, h.2 c (by simp)⟩
  induction h with
  | int h => exact ⟨fun c hc => digit_numChar (h.2 c hc), first h, h.last⟩
  | @frac t u h h' =>
    obtain ⟨s, c, rfl, hc⟩ := h'.last
    obtain ⟨d, r, rfl, hd⟩ := first h
    refine ⟨?_, ⟨d, _, rfl, hd⟩, (d :: r) ++ '.' :: s, c, by simp, hc⟩
    intro x hx
    simp only [List.mem_append, List.mem_cons] at hx
    rcases hx with hx | rfl | hx
    · exact digit_numChar (h.2 x (by simpa using hx))
    · rfl
    · exact digit_numChar (h'.2 x (by simpa using hx))
  | @exp t u e h he h' ih =>
    obtain ⟨i1, ⟨d, r, rfl, hd⟩, -⟩ := ih
    obtain ⟨s, c, rfl, hc⟩ := h'.last
    refine ⟨?_, ⟨d, _, rfl, hd⟩, (d :: r) ++ e :: s, c, by simp, hc⟩
    intro x hx
    simp only [List.mem_append, List.mem_cons] at hx
    rcases hx with hx | rfl | hx
    · exact i1 x (by simpa using hx)
    · rcases he with rfl | rfl <;> rfl
    · exact digit_numChar (h'.2 x (by simpa using hx))
  | @expSign t u e s' h he hs h' ih =>
    obtain ⟨i1, ⟨d, r, rfl, hd⟩, -⟩ := ih
    obtain ⟨s, c, rfl, hc⟩ := h'.last
    refine ⟨?_, ⟨d, _, rfl, hd⟩, (d :: r) ++ e :: s' :: s, c, by simp, hc⟩
    intro x hx
    simp only [List.mem_append, List.mem_cons] at hx
    rcases hx with hx | rfl | rfl | hx
    · exact i1 x (by simpa using hx)
    · rcases he with rfl | rfl <;> rfl
    · rcases hs with rfl | rfl <;> rfl
    · exact digit_numChar (h'.2 x (by simpa using hx))

theorem numChar_plain {c : Char} (h : numChar c = true) : c ∉ forbidden ∧ c ∉ indicators ∧ c ≠ ':' := by
  refine ⟨?_, ?_, ?_⟩
  · intro hm
    simp only [forbidden, List.mem_cons, List.not_mem_nil, or_false] at hm
    rcases hm with rfl | rfl | rfl | rfl | rfl | rfl | rfl | rfl | rfl | rfl | rfl | rfl | rfl | rfl <;> revert h <;> decide
  · intro hm
    simp only [indicators, List.mem_cons, List.not_mem_nil, or_false] at hm
    rcases hm with rfl | rfl | rfl | rfl | rfl <;> revert h <;> decide
  · rintro rfl
    revert h
    decide

theorem Number.word (h : Number t) : Word t ∧ t.head? ≠ some ':' := by
  have key : (∀ c ∈ t, numChar c = true) ∧ (∃ c r, t = c :: r) ∧ ∃ s c, t = s ++ [c] ∧ c.isDigit = true := by
    cases h with
    | plain h =>
      obtain ⟨h1, ⟨c, r, h2, -⟩, h3⟩ := h.parts
      exact ⟨h1, ⟨c, r, h2⟩, h3⟩
    | minus h =>
      obtain ⟨h1, -, ⟨s, c, h3, h4⟩⟩ := h.parts
      refine ⟨?_, ⟨_, _, rfl⟩, '-' :: s, c, by simp [h3], h4⟩
      intro x hx
      rcases List.mem_cons.1 hx with rfl | hx
      · rfl
      · exact h1 x hx
  obtain ⟨h1, ⟨c, r, h2⟩, s, d, h3, h4⟩ := key
  have hlast : t.getLast? = some d := by simp [h3]
  have hc := numChar_plain (h1 c (by simp [h2]))
  refine ⟨⟨fun x hx => (numChar_plain (h1 x hx)).1, ⟨c, r, h2, hc.2.1⟩, ?_, ?_⟩, by simpa [h2] using hc.2.2⟩
  · rw [hlast]
    intro e
    injection e with e
    subst e
    exact (numChar_plain (digit_numChar h4)).2.2 rfl
  · intro hm
    simp only [markers, List.mem_cons, List.not_mem_nil, or_false] at hm
    rcases hm with rfl | rfl | rfl | rfl <;> simp at hlast <;> subst hlast <;> revert h4 <;> decide

theorem Raw.within (h : Raw u t ∧ ∀ c ∈ u, c ≠ '﻿') : u = t ∧ Within .double t := by
  obtain ⟨⟨rfl, h1⟩, h2⟩ := h
  refine ⟨rfl, .of fun c hc => ⟨(h1 c hc).2.2, ?_⟩⟩
  simp [signs, (h1 c hc).1, (h1 c hc).2.1, h2 c hc]

/-- The YAML text of a part, on lines which may start at column 0. -/
def Means : Part → List Char → Json → Prop
  | .value, u, j => ∀ n, depth j ≤ n → BlockText.Flow (some 0) .node n u (tree j) ∧
      (isScalar j = true → BlockText.Scalar u (tree j) ∧ u.head? ≠ some ':') ∧
      (isScalar j = false → BlockText.Flow (some 0) .coll n u (tree j))
  | .items, u, j => ∀ es, j = .arr es → ∀ n, depths es ≤ n → BlockText.Flow (some 0) .items n u (.sequence (trees es))
  | .pair, u, j => ∀ k e, j = .obj [(k, e)] → ∀ n, depth e ≤ n → BlockText.Flow (some 0) .pair n u (.mappingEntry (.text k .double) (tree e))
  | .pairs, u, j => ∀ es, j = .obj es → ∀ n, depthsO es ≤ n → BlockText.Flow (some 0) .pairs n u (.mapping (entries es))

theorem means_scalar (h : BlockText.Scalar u (tree j)) (hs : isScalar j = true) (hc : u.head? ≠ some ':') : Means .value u j :=
  fun _ _ => ⟨.atom (.scalar h) hc, fun _ => ⟨h, hc⟩, fun h => by rw [hs] at h; cases h⟩

theorem means_coll (hs : isScalar j = false) (h : ∀ n, depth j ≤ n → BlockText.Flow (some 0) .coll n u (tree j)) : Means .value u j :=
  fun n hn => ⟨.coll (h n hn), (fun h => by rw [hs] at h; cases h), fun _ => h n hn⟩

theorem break_front {b g r : List Char} (h : BlockText.Break b (g ++ r)) : BlockText.Break b g := by
  cases h with
  | lf => exact .lf
  | crlf => exact .crlf
  | cr h =>
    refine .cr ?_
    cases g with
    | nil => simp
    | cons => exact h

theorem spaces_room : ∀ {g : List Char}, Spaces g → BlockText.Room (some 0) g := by
  have key : ∀ {g : List Char}, Spaces g → (∃ j, g = BlockText.sp j) ∨
      ∃ i b g' j, g = BlockText.sp i ++ (b ++ (g' ++ BlockText.sp j)) ∧ BlockText.Break b (g' ++ BlockText.sp j) ∧ BlockText.Blanks g' := by
    intro g h
    induction g with
    | nil => exact .inl ⟨0, rfl⟩
    | cons c g ih =>
      have ih := ih fun c hc => h c (by simp [hc])
      have more : ∀ {i b g' j a}, BlockText.Break a (BlockText.sp i ++ (b ++ g') ++ BlockText.sp j) → BlockText.Break b (g' ++ BlockText.sp j) →
          BlockText.Blanks g' → ∃ i₁ b₁ g₁ j₁, a ++ (BlockText.sp i ++ (b ++ (g' ++ BlockText.sp j))) =
            BlockText.sp i₁ ++ (b₁ ++ (g₁ ++ BlockText.sp j₁)) ∧ BlockText.Break b₁ (g₁ ++ BlockText.sp j₁) ∧ BlockText.Blanks g₁ :=
        fun {i b g' j a} h1 h2 h3 => ⟨0, a, _, j, by simp [BlockText.sp], h1, .brk (j := i) (break_front h2) h3⟩
      rcases h c (by simp) with rfl | rfl | rfl
      · rcases ih with ⟨j, rfl⟩ | ⟨i, b, g', j, rfl, hb, hg⟩
        · exact .inl ⟨j + 1, rfl⟩
        · exact .inr ⟨i + 1, b, g', j, rfl, hb, hg⟩
      · rcases ih with ⟨j, rfl⟩ | ⟨i, b, g', j, rfl, hb, hg⟩
        · exact .inr ⟨0, ['\n'], [], j, rfl, .lf, .nil⟩
        · exact .inr (more (a := ['\n']) .lf hb hg)
      · rcases ih with ⟨j, rfl⟩ | ⟨i, b, g', j, rfl, hb, hg⟩
        · refine .inr ⟨0, ['\r'], [], j, rfl, .cr ?_, .nil⟩
          cases j <;> simp [BlockText.sp, List.replicate_succ]
        · cases i with
          | succ i => exact .inr (more (i := i + 1) (a := ['\r']) (.cr (by simp [BlockText.sp, List.replicate_succ])) hb hg)
          | zero =>
            cases hb with
            | lf => exact .inr ⟨0, ['\r', '\n'], g', j, rfl, .crlf, hg⟩
            | crlf => exact .inr (more (i := 0) (a := ['\r']) (.cr (by simp [BlockText.sp])) .crlf hg)
            | cr h' => exact .inr (more (i := 0) (a := ['\r']) (.cr (by simp [BlockText.sp])) (.cr h') hg)
  intro g h
  rcases key h with ⟨j, rfl⟩ | ⟨i, b, g', j, rfl, hb, hg⟩
  · exact .here
  · exact .brk hb hg (Nat.zero_le _)

/-- What is needed of a style. -/
structure Readable (S : Style) : Prop where
  ws : ∀ {g}, S.ws g → Spaces g
  colon : ∀ {g g' e}, S.colon g g' e → Spaces g ∧ Spaces g' ∧ (g' ≠ [] ∨ g = [] ∧ isScalar e = true)
  str : ∀ {u t}, S.str u t → u = t ∧ Within .double t

theorem readable_spaced : Readable spaced := ⟨id, id, Raw.within⟩

theorem hex_digit {c : Char} {n : Nat} (h : hexDigit c = some n) : c ∈ "0123456789abcdefABCDEF".toList := by
  have key : ∀ m < 103, ∀ c : Char, c.toNat = m → (hexDigit c).isSome = true → c ∈ "0123456789abcdefABCDEF".toList := by
    intro m hm c hc hs
    have e : c = Char.ofNat m := by rw [← hc, Char.ofNat_toNat]
    subst e
    have all : ∀ m < 103, (hexDigit (Char.ofNat m)).isSome = true → Char.ofNat m ∈ "0123456789abcdefABCDEF".toList := by decide
    exact all m hm hs
  refine key c.toNat ?_ c rfl (by rw [h]; rfl)
  unfold hexDigit at h
  split at h
  · rename_i h1
    have : c.toNat ≤ '9'.toNat := h1.2
    have : '9'.toNat = 57 := rfl
    omega
  · split at h
    · rename_i h1
      have : c.toNat ≤ 'f'.toNat := h1.2
      have : 'f'.toNat = 102 := rfl
      omega
    · split at h
      · rename_i h1
        have : c.toNat ≤ 'F'.toNat := h1.2
        have : 'F'.toNat = 70 := rfl
        omega
      · cases h

theorem Body.within {u : List Char} (h : Body u) : Within .double u := by
  induction h with
  | nil => exact .nil
  | char h1 h2 h3 h4 _ ih => exact .char h4 (by simp [signs, h1, h2, h3]) ih
  | short h1 _ ih =>
    refine .escape (e := [_]) rfl (.letter ?_) ih
    simp only [List.mem_cons, List.not_mem_nil, or_false] at h1
    rcases h1 with rfl | rfl | rfl | rfl | rfl | rfl | rfl <;> decide
  | code h1 _ ih =>
    obtain ⟨a, b, c, d, _, _, _, _, rfl, ha, hb, hc, hd, -⟩ := h1
    refine .escape (e := ['u', a, b, c, d]) rfl (.number (by simp) ?_) ih
    intro x hx
    simp only [List.mem_cons, List.not_mem_nil, or_false] at hx
    rcases hx with rfl | rfl | rfl | rfl
    · exact hex_digit ha
    · exact hex_digit hb
    · exact hex_digit hc
    · exact hex_digit hd

theorem readable_written : Readable written := ⟨id, id, fun h => ⟨h.1, h.1 ▸ h.2.within⟩⟩

theorem text_means {S : Style} (hS : Readable S) (h : Text S k u j) : Means k u j := by
  have spaces_room : ∀ {g : List Char}, S.ws g → BlockText.Room (some 0) g := fun h => spaces_room (hS.ws h)
  induction h with
  | null =>
    exact means_scalar (.phrase (.word ⟨by decide, ⟨_, _, rfl, by decide⟩, by decide, by decide⟩)) rfl (by decide)
  | yes =>
    exact means_scalar (.phrase (.word ⟨by decide, ⟨_, _, rfl, by decide⟩, by decide, by decide⟩)) rfl (by decide)
  | no =>
    exact means_scalar (.phrase (.word ⟨by decide, ⟨_, _, rfl, by decide⟩, by decide, by decide⟩)) rfl (by decide)
  | num h => exact means_scalar (.phrase (.word h.word.1)) rfl h.word.2
  | str h =>
    obtain ⟨rfl, h1⟩ := hS.str h
    exact means_scalar (.double h1) rfl (by simp)
  | @noItems g h =>
    refine means_coll rfl fun n hn => ?_
    simp only [depth, depths] at hn
    obtain ⟨n, rfl⟩ : ∃ m, n = m + 1 := ⟨n - 1, by omega⟩
    exact .noItems (spaces_room h)
  | @arr g u es h _ ih =>
    refine means_coll rfl fun n hn => ?_
    simp only [depth] at hn
    obtain ⟨n, rfl⟩ : ∃ m, n = m + 1 := ⟨n - 1, by omega⟩
    exact .seq (spaces_room h) (ih es rfl n (by omega))
  | @noPairs g h =>
    refine means_coll rfl fun n hn => ?_
    exact .noPairs (spaces_room h)
  | @obj g u es h _ ih =>
    refine means_coll rfl fun n hn => ?_
    simp only [depth] at hn
    exact .map (spaces_room h) (ih es rfl n hn)
  | @item u g e _ h ih =>
    intro es he n hn
    injection he with he
    subst he
    simp only [depths] at hn
    exact .item (ih n (by omega)).1 (spaces_room h)
  | @items u v g g' e es _ h h' _ ih ih' =>
    intro es' he n hn
    injection he with he
    subst he
    simp only [depths] at hn
    exact .items (ih n (by omega)).1 (spaces_room h) (spaces_room h') (ih' es rfl n (by omega))
  | @pair k t u g g' e h h' _ ih =>
    intro k' e' he n hn
    simp only [Json.obj.injEq, List.cons.injEq, Prod.mk.injEq, and_true] at he
    obtain ⟨rfl, rfl⟩ := he
    obtain ⟨rfl, h1⟩ := hS.str h
    obtain ⟨w1, w2, w3⟩ := hS.colon h'
    obtain ⟨i1, i2, -⟩ := ih n hn
    have hk : BlockText.Scalar ('"' :: (k ++ ['"'])) (.text k .double) := .double h1
    rcases w3 with w3 | ⟨rfl, w3⟩
    · have := BlockText.Flow.pair (.scalar hk) (by simp) (Json.spaces_room w1) (Json.spaces_room w2) w3 i1
      simpa using this
    · by_cases hg : g' = []
      · subst hg
        have := BlockText.Flow.tight (o := some 0) (n := n) hk (by simp) (i2 w3).1 (i2 w3).2
        simpa using this
      · have := BlockText.Flow.pair (.scalar hk) (by simp) (Json.spaces_room w1) (Json.spaces_room w2) hg i1
        simpa using this
  | @lastPair u g p _ h ih =>
    intro es he n hn
    injection he with he
    subst he
    obtain ⟨k, e⟩ := p
    simp only [depthsO] at hn
    exact .lastPair (.plain (ih k e rfl n (by omega))) (spaces_room h)
  | @pairs u v g g' p es _ h h' _ ih ih' =>
    intro es' he n hn
    injection he with he
    subst he
    obtain ⟨k, e⟩ := p
    simp only [depthsO] at hn
    exact .pairs (.plain (ih k e rfl n (by omega))) (spaces_room h) (spaces_room h') (ih' es rfl n (by omega))

/-- A JSON text is a YAML scalar or a YAML collection in brackets. -/
theorem text_core {S : Style} (hS : Readable S) (h : Text S .value u j) (hd : depth j ≤ 4) : BlockText.Core 0 u (tree j) := by
  obtain ⟨-, h1, h2⟩ := text_means hS h 4 hd
  cases hs : isScalar j with
  | true => exact .body (.scalar (h1 hs).1)
  | false => exact .body (.coll (h2 hs))

end Verif.Json
