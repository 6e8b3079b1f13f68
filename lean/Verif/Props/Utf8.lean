import Verif.Model.RuneStream
import Verif.Spec.Utf8
import Verif.Props.Lexer

/-! C65: the stream of runes over the bytes of the source (`engines/yayamls/lexer/rune_stream.go`). -/

namespace Verif.Props.Utf8

open Verif.RuneStream Verif.Utf8

theorem toNat_eq {c : Char} {n : Nat} (h : c.toNat = n) : Char.ofNat n = c := by subst h; exact Char.ofNat_toNat c

theorem valid_bounds (c : Char) : c.toNat < 0xD800 ∨ (0xDFFF < c.toNat ∧ c.toNat < 0x110000) := c.valid

theorem toNat_ofNat {n : Nat} (h : n < 256) : (UInt8.ofNat n).toNat = n := by
  simp [UInt8.toNat_ofNat']
  omega

/-- Decoding the encoding of a character gives the character and the length of its encoding. -/
theorem decode_char (c : Char) (r : List UInt8) :
    decodeRune (String.utf8EncodeChar c ++ r) = (c, (String.utf8EncodeChar c).length) := by
  have hv := valid_bounds c
  have hc : c.val.toNat = c.toNat := rfl
  unfold String.utf8EncodeChar
  simp only [hc]
  have he : ∀ {n}, n = c.toNat → Char.ofNat n = c := fun h => toNat_eq h.symm
  generalize c.toNat = v at hv he
  split
  · rename_i h
    simp only [List.cons_append, List.nil_append, decodeRune, toNat_ofNat (show v < 256 by omega)]
    rw [if_pos (by omega), he rfl]
    rfl
  split
  · rename_i g1 g2
    have e0 := toNat_ofNat (n := v / 64 % 32 + 192) (by omega)
    have e1 := toNat_ofNat (n := v % 64 + 128) (by omega)
    generalize UInt8.ofNat (v / 64 % 32 + 192) = b0 at *
    generalize UInt8.ofNat (v % 64 + 128) = b1 at *
    have hw : within b1 0x80 0xBF = true := by simp only [within, Bool.and_eq_true, decide_eq_true_eq]; omega
    simp only [List.cons_append, List.nil_append, decodeRune]
    rw [if_neg (by omega), if_neg (by omega), if_pos (by omega), if_pos hw, he (by omega)]
    rfl
  split
  · rename_i g1 g2 g3
    have e0 := toNat_ofNat (n := v / 4096 % 16 + 224) (by omega)
    have e1 := toNat_ofNat (n := v / 64 % 64 + 128) (by omega)
    have e2 := toNat_ofNat (n := v % 64 + 128) (by omega)
    generalize UInt8.ofNat (v / 4096 % 16 + 224) = b0 at *
    generalize UInt8.ofNat (v / 64 % 64 + 128) = b1 at *
    generalize UInt8.ofNat (v % 64 + 128) = b2 at *
    have hw : (within b1 (if b0.toNat = 0xE0 then 0xA0 else 0x80) (if b0.toNat = 0xED then 0x9F else 0xBF) && within b2 0x80 0xBF) = true := by
      simp only [within, Bool.and_eq_true, decide_eq_true_eq]
      refine ⟨⟨?_, ?_⟩, ?_, ?_⟩ <;> (try split) <;> omega
    simp only [List.cons_append, List.nil_append, decodeRune]
    rw [if_neg (by omega), if_neg (by omega), if_neg (by omega), if_pos (by omega), if_pos hw, he (by omega)]
    rfl
  · rename_i g1 g2 g3
    have e0 := toNat_ofNat (n := v / 262144 % 8 + 240) (by omega)
    have e1 := toNat_ofNat (n := v / 4096 % 64 + 128) (by omega)
    have e2 := toNat_ofNat (n := v / 64 % 64 + 128) (by omega)
    have e3 := toNat_ofNat (n := v % 64 + 128) (by omega)
    generalize UInt8.ofNat (v / 262144 % 8 + 240) = b0 at *
    generalize UInt8.ofNat (v / 4096 % 64 + 128) = b1 at *
    generalize UInt8.ofNat (v / 64 % 64 + 128) = b2 at *
    generalize UInt8.ofNat (v % 64 + 128) = b3 at *
    have hw : (within b1 (if b0.toNat = 0xF0 then 0x90 else 0x80) (if b0.toNat = 0xF4 then 0x8F else 0xBF) && within b2 0x80 0xBF &&
        within b3 0x80 0xBF) = true := by
      simp only [within, Bool.and_eq_true, decide_eq_true_eq]
      refine ⟨⟨⟨?_, ?_⟩, ?_, ?_⟩, ?_, ?_⟩ <;> (try split) <;> omega
    simp only [List.cons_append, List.nil_append, decodeRune]
    rw [if_neg (by omega), if_neg (by omega), if_neg (by omega), if_neg (by omega), if_pos (by omega), if_pos hw, he (by omega)]
    rfl

theorem byte_eq {b : UInt8} {n : Nat} (h : n < 256) (e : b.toNat = n) : UInt8.ofNat n = b := by
  apply UInt8.toNat_inj.1
  rw [toNat_ofNat h, e]

/-- At every byte either a character starts or the decoder skips one byte. -/
theorem decode_cases (b : UInt8) (r : List UInt8) :
    (∃ (c : Char) (t : List UInt8), b :: r = String.utf8EncodeChar c ++ t) ∨ decodeRune (b :: r) = (runeError, 1) := by
  have hb := b.toNat_lt
  have hval : ∀ v, v < 0xD800 ∨ (0xDFFF < v ∧ v < 0x110000) → ∃ c : Char, c.val.toNat = v := by
    intro v hv
    have hv' : v.isValidChar := hv
    exact ⟨Char.ofNat v, by
      have : Char.ofNat v = Char.ofNatAux v hv' := by simp [Char.ofNat, hv']
      rw [this]
      simp [Char.ofNatAux, UInt32.toNat]⟩
  by_cases h1 : b.toNat < 0x80
  · left
    obtain ⟨c, hc⟩ := hval b.toNat (by omega)
    refine ⟨c, r, ?_⟩
    simp only [String.utf8EncodeChar, hc]
    rw [if_pos (by omega), byte_eq (by omega) rfl]
    rfl
  by_cases h2 : b.toNat < 0xC2
  · right; simp only [decodeRune]; rw [if_neg h1, if_pos h2]
  by_cases h3 : b.toNat < 0xE0
  · match r with
    | [] => right; simp only [decodeRune]; rw [if_neg h1, if_neg h2, if_pos h3]
    | b1 :: r =>
      by_cases hw : within b1 0x80 0xBF = true
      · left
        simp only [within, Bool.and_eq_true, decide_eq_true_eq] at hw
        obtain ⟨c, hc⟩ := hval ((b.toNat - 0xC0) * 64 + (b1.toNat - 0x80)) (by omega)
        refine ⟨c, r, ?_⟩
        simp only [String.utf8EncodeChar, hc]
        rw [if_neg (by omega), if_pos (by omega), byte_eq (b := b) (by omega) (by omega), byte_eq (b := b1) (by omega) (by omega)]
        rfl
      · right; simp only [decodeRune]; rw [if_neg h1, if_neg h2, if_pos h3, if_neg hw]
  by_cases h4 : b.toNat < 0xF0
  · match r with
    | [] => right; simp only [decodeRune]; rw [if_neg h1, if_neg h2, if_neg h3, if_pos h4]
    | [_] => right; simp only [decodeRune]; rw [if_neg h1, if_neg h2, if_neg h3, if_pos h4]
    | b1 :: b2 :: r =>
      by_cases hw : (within b1 (if b.toNat = 0xE0 then 0xA0 else 0x80) (if b.toNat = 0xED then 0x9F else 0xBF) && within b2 0x80 0xBF) = true
      · left
        simp only [within, Bool.and_eq_true, decide_eq_true_eq] at hw
        have : (b.toNat = 0xE0 → 0xA0 ≤ b1.toNat) ∧ 0x80 ≤ b1.toNat ∧ (b.toNat = 0xED → b1.toNat ≤ 0x9F) ∧ b1.toNat ≤ 0xBF := by
          obtain ⟨⟨g1, g2⟩, -⟩ := hw
          split at g1 <;> split at g2 <;> omega
        obtain ⟨c, hc⟩ := hval ((b.toNat - 0xE0) * 4096 + (b1.toNat - 0x80) * 64 + (b2.toNat - 0x80)) (by omega)
        refine ⟨c, r, ?_⟩
        simp only [String.utf8EncodeChar, hc]
        rw [if_neg (by omega), if_neg (by omega), if_pos (by omega), byte_eq (b := b) (by omega) (by omega),
          byte_eq (b := b1) (by omega) (by omega), byte_eq (b := b2) (by omega) (by omega)]
        rfl
      · right; simp only [decodeRune]; rw [if_neg h1, if_neg h2, if_neg h3, if_pos h4, if_neg hw]
  by_cases h5 : b.toNat < 0xF5
  · match r with
    | [] => right; simp only [decodeRune]; rw [if_neg h1, if_neg h2, if_neg h3, if_neg h4, if_pos h5]
    | [_] => right; simp only [decodeRune]; rw [if_neg h1, if_neg h2, if_neg h3, if_neg h4, if_pos h5]
    | [_, _] => right; simp only [decodeRune]; rw [if_neg h1, if_neg h2, if_neg h3, if_neg h4, if_pos h5]
    | b1 :: b2 :: b3 :: r =>
      by_cases hw : (within b1 (if b.toNat = 0xF0 then 0x90 else 0x80) (if b.toNat = 0xF4 then 0x8F else 0xBF) && within b2 0x80 0xBF &&
          within b3 0x80 0xBF) = true
      · left
        simp only [within, Bool.and_eq_true, decide_eq_true_eq] at hw
        have : (b.toNat = 0xF0 → 0x90 ≤ b1.toNat) ∧ 0x80 ≤ b1.toNat ∧ (b.toNat = 0xF4 → b1.toNat ≤ 0x8F) ∧ b1.toNat ≤ 0xBF := by
          obtain ⟨⟨⟨g1, g2⟩, -⟩, -⟩ := hw
          split at g1 <;> split at g2 <;> omega
        obtain ⟨c, hc⟩ := hval ((b.toNat - 0xF0) * 262144 + (b1.toNat - 0x80) * 4096 + (b2.toNat - 0x80) * 64 + (b3.toNat - 0x80)) (by omega)
        refine ⟨c, r, ?_⟩
        simp only [String.utf8EncodeChar, hc]
        rw [if_neg (by omega), if_neg (by omega), if_neg (by omega), byte_eq (b := b) (by omega) (by omega),
          byte_eq (b := b1) (by omega) (by omega), byte_eq (b := b2) (by omega) (by omega), byte_eq (b := b3) (by omega) (by omega)]
        rfl
      · right; simp only [decodeRune]; rw [if_neg h1, if_neg h2, if_neg h3, if_neg h4, if_pos h5, if_neg hw]
  · right; simp only [decodeRune]; rw [if_neg h1, if_neg h2, if_neg h3, if_neg h4, if_neg h5]

theorem encode_ne (c : Char) : String.utf8EncodeChar c ≠ [] := by
  unfold String.utf8EncodeChar
  simp only
  split <;> (try split) <;> (try split) <;> simp

theorem decode_broken {b : UInt8} {r : List UInt8} (h : Broken (b :: r)) : decodeRune (b :: r) = (runeError, 1) := by
  rcases decode_cases b r with ⟨c, t, e⟩ | h'
  · exact absurd ⟨t, e.symm⟩ (h c)
  · exact h'

theorem decodes_total : ∀ (n : Nat) (bs : List UInt8), bs.length ≤ n → ∃ cs, Decodes bs cs := by
  intro n
  induction n with
  | zero => intro bs h; obtain rfl : bs = [] := List.length_eq_zero_iff.1 (by omega); exact ⟨_, .nil⟩
  | succ n ih =>
    intro bs hn
    cases bs with
    | nil => exact ⟨_, .nil⟩
    | cons b r =>
      by_cases hb : Broken (b :: r)
      · obtain ⟨cs, h⟩ := ih r (by simp at hn; omega)
        exact ⟨_, .broken hb h⟩
      · simp only [Broken, not_forall, not_not] at hb
        obtain ⟨c, t, e⟩ := hb
        have : 0 < (String.utf8EncodeChar c).length := List.length_pos_iff.2 (encode_ne c)
        have hl := congrArg List.length e
        simp only [List.length_append, List.length_cons] at hl hn
        obtain ⟨cs, h⟩ := ih t (by omega)
        exact ⟨c :: cs, e ▸ .char h⟩

/-- The calls of `Next` from a position of the source. -/
theorem take_decodes {bs : List UInt8} {cs : List Char} (h : Decodes bs cs) : ∀ (s : Stream) (k : Nat), s.src.drop s.pos = bs → s.pos ≤ s.src.length →
    (take (cs.length + k) s).1 = cs.map some ++ List.replicate k none := by
  have done : ∀ (k : Nat) (s : Stream), s.src.length ≤ s.pos → (take k s).1 = List.replicate k none := by
    intro k
    induction k with
    | zero => intro s _; rfl
    | succ k ih =>
      intro s hs
      simp only [take, next]
      rw [if_pos (by omega), List.replicate_succ]
      simp [ih s hs]
  have step : ∀ (s : Stream) (k : Nat) (c : Char) (n : Nat), s.pos < s.src.length → decodeRune (s.src.drop s.pos) = (c, n) →
      (take (k + 1) s).1 = some c :: (take k { s with pos := s.pos + n }).1 := by
    intro s k c n h1 h2
    simp only [take, next]
    rw [if_neg (by omega), h2]
  induction h with
  | nil =>
    intro s k hs hp
    have : s.src.length ≤ s.pos := by simpa using hs
    simpa using done k s this
  | @char c r cs _ ih =>
    intro s k hs hp
    have hpos : 0 < (String.utf8EncodeChar c).length := List.length_pos_iff.2 (encode_ne c)
    have hl := congrArg List.length hs
    simp only [List.length_drop, List.length_append] at hl
    rw [List.length_cons, Nat.add_right_comm, step s _ c _ (by omega) (by rw [hs, decode_char])]
    rw [ih { s with pos := s.pos + (String.utf8EncodeChar c).length } k (by rw [← List.drop_drop, hs]; simp) (by simp only; omega)]
    rfl
  | @broken b r cs hb _ ih =>
    intro s k hs hp
    have hl := congrArg List.length hs
    simp only [List.length_drop, List.length_cons] at hl
    rw [List.length_cons, Nat.add_right_comm, step s _ runeError 1 (by omega) (by rw [hs, decode_broken hb])]
    rw [ih { s with pos := s.pos + 1 } k (by rw [← List.drop_drop, hs]; simp) (by simp only; omega)]
    rfl

/-- C65.  Every source is read to its end: the calls of `Next` give its characters, U+FFFD for each byte at which no character starts, and
`EOF` from then on. -/
theorem source_decoded (bs : List UInt8) : ∃ cs, Decodes bs cs ∧
    ∀ k, (take (cs.length + k) (newStream bs)).1 = cs.map some ++ List.replicate k none := by
  obtain ⟨cs, h⟩ := decodes_total _ bs (Nat.le_refl _)
  exact ⟨cs, h, fun k => take_decodes h (newStream bs) k rfl (Nat.zero_le _)⟩

theorem decodes_encode : ∀ s : List Char, Decodes (encode s) s
  | [] => .nil
  | c :: s => by
    simp only [encode, List.flatMap_cons]
    exact .char (decodes_encode s)

/-- C65.  A text in UTF-8 is read as it is. -/
theorem valid_text_kept (s : List Char) (k : Nat) :
    (take (s.length + k) (newStream (encode s))).1 = s.map some ++ List.replicate k none :=
  take_decodes (decodes_encode s) (newStream _) k rfl (Nat.zero_le _)

example : encode "aé€😀".toList = [0x61, 0xC3, 0xA9, 0xE2, 0x82, 0xAC, 0xF0, 0x9F, 0x98, 0x80] := by decide

/-- C65.  The characters of a source are determined. -/
theorem decoding_unique {bs : List UInt8} {cs cs' : List Char} (h : Decodes bs cs) (h' : Decodes bs cs') : cs = cs' := by
  have h1 := take_decodes h (newStream bs) cs'.length rfl (Nat.zero_le _)
  have h2 := take_decodes h' (newStream bs) cs.length rfl (Nat.zero_le _)
  rw [Nat.add_comm, h1] at h2
  have key : ∀ (a b : List Char), a.map some ++ List.replicate b.length none = b.map some ++ List.replicate a.length none → a = b := by
    intro a
    induction a with
    | nil => intro b h; cases b <;> simp [List.replicate_succ] at h ⊢
    | cons x a ih =>
      intro b h
      cases b with
      | nil => simp [List.replicate_succ] at h
      | cons y b =>
        simp only [List.map_cons, List.cons_append, List.length_cons, List.cons.injEq, Option.some.injEq] at h
        obtain ⟨rfl, h⟩ := h
        rw [List.replicate_succ', List.replicate_succ', ← List.append_assoc, ← List.append_assoc] at h
        rw [ih b (List.append_cancel_right h)]
  exact key _ _ h2

/-- C65.  The characters tell the bytes again exactly if the source is UTF-8. -/
theorem lossless_iff {bs : List UInt8} {cs : List Char} (h : Decodes bs cs) : encode cs = bs ↔ ∃ s, bs = encode s := by
  constructor
  · intro e; exact ⟨cs, e.symm⟩
  · rintro ⟨s, rfl⟩
    rw [decoding_unique h (decodes_encode s)]

/-- C65.  Sources which are not UTF-8 are changed: the byte `0xFF` is read as the character U+FFFD. -/
theorem broken_byte_changed : Decodes [0xFF] [Char.ofNat 0xFFFD] ∧ Decodes [0xEF, 0xBF, 0xBD] [Char.ofNat 0xFFFD] := by
  refine ⟨.broken ?_ .nil, decodes_encode [Char.ofNat 0xFFFD]⟩
  rintro c ⟨t, ht⟩
  have := decode_char c t
  rw [ht] at this
  have h1 : decodeRune [0xFF] = (runeError, 1) := by decide
  rw [h1] at this
  obtain ⟨rfl, h2⟩ := Prod.mk.inj this
  revert h2
  decide

open Verif.Lexer Verif.Props.Lexer in
/-- C65 with C03: the texts of the tokens of a source in UTF-8, encoded again, are the bytes of the source. -/
theorem token_bytes_lossless (bs : List UInt8) (hbs : ∃ s, bs = encode s) (sched : List Bool) : ∃ src, Decodes bs src ∧
    ∀ fuel, src.length + 1 ≤ fuel → ∃ ts, tokens fuel (newTokenizer src) sched = some ts ∧
      ((∃ t ∈ ts, t.type = .eof) → encode (texts (beforeEOF ts)) = bs) := by
  obtain ⟨s, rfl⟩ := hbs
  refine ⟨s, decodes_encode s, fun fuel hf => ?_⟩
  obtain ⟨ts, h1, -, -, h2⟩ := tokenisation_lossless s sched fuel hf
  exact ⟨ts, h1, fun h => by rw [h2 h]⟩

end Verif.Props.Utf8
