import Verif.Spec.Base64
import Verif.Model.Binary

/-!
C75: recognition of binary scalars, engines/pkg/schema/schema.go:143-154.
-/

set_option linter.unusedSimpArgs false
set_option linter.unusedVariables false

namespace Verif.Props.Binary

open Verif.Base64 Verif.Binary

theorem alphabet_iff : ∀ n, n < 64 → ∀ c, alphabet[n]? = some c → inClass c = true := by
  have : ∀ n, n < 64 → (alphabet[n]?.all inClass) = true := by decide +kernel
  intro n hn c hc
  have := this n hn
  rw [hc] at this
  exact this

theorem class_code : ∀ m, m < 128 → inClass (Char.ofNat m) = true → ∃ n, n < 64 ∧ alphabet[n]? = some (Char.ofNat m) := by
  decide +kernel

/-- The class of the regular expression is the alphabet. -/
theorem inClass_iff {c : Char} : inClass c = true ↔ ∃ n, Val c n := by
  constructor
  · intro h
    have hlt : c.toNat < 128 := by
      have hZ : ∀ d : Char, c ≤ d ↔ c.toNat ≤ d.toNat := fun _ => Iff.rfl
      simp only [inClass, Bool.or_eq_true, Bool.and_eq_true, decide_eq_true_eq, beq_iff_eq, hZ] at h
      rcases h with (((⟨_, h⟩ | ⟨_, h⟩) | ⟨_, h⟩) | rfl) | rfl
      · have : 'Z'.toNat = 90 := rfl
        omega
      · have : 'z'.toNat = 122 := rfl
        omega
      · have : '9'.toNat = 57 := rfl
        omega
      · decide
      · decide
    have hc : Char.ofNat c.toNat = c := Char.ofNat_toNat c
    obtain ⟨n, _, hn⟩ := class_code c.toNat hlt (by rw [hc]; exact h)
    exact ⟨n, by rw [hc] at hn; exact hn⟩
  · rintro ⟨n, hn⟩
    have hlt : n < 64 := by
      obtain ⟨h, _⟩ := List.getElem?_eq_some_iff.1 hn
      have : alphabet.length = 64 := by decide +kernel
      omega
    exact alphabet_iff n hlt c hn

theorem not_pad : inClass '=' = false := by decide

/-- C75: the regular expression accepts exactly the texts which decode. -/
theorem regex_iff (s : Text) : base64Regex s = true ↔ ∃ bs, Decodes s bs := by
  match s with
  | [] => exact ⟨fun _ => ⟨[], .nil⟩, fun _ => rfl⟩
  | [a] => exact ⟨fun h => by simp [base64Regex] at h, fun ⟨bs, h⟩ => by cases h⟩
  | [a, b] => exact ⟨fun h => by simp [base64Regex] at h, fun ⟨bs, h⟩ => by cases h⟩
  | [a, b, c] => exact ⟨fun h => by simp [base64Regex] at h, fun ⟨bs, h⟩ => by cases h⟩
  | a :: b :: c :: d :: r =>
    have ih := regex_iff r
    constructor
    · intro h
      simp only [base64Regex] at h
      split at h
      · rename_i hc
        simp only [Bool.and_eq_true] at hc
        obtain ⟨i, hi⟩ := inClass_iff.1 hc.1.1.1
        obtain ⟨j, hj⟩ := inClass_iff.1 hc.1.1.2
        obtain ⟨k, hk⟩ := inClass_iff.1 hc.1.2
        obtain ⟨l, hl⟩ := inClass_iff.1 hc.2
        obtain ⟨bs, hb⟩ := ih.1 h
        exact ⟨_, .four hi hj hk hl hb⟩
      · simp only [Bool.and_eq_true, Bool.or_eq_true, beq_iff_eq, List.isEmpty_iff] at h
        obtain ⟨⟨⟨rfl, ha⟩, hb⟩, h⟩ := h
        obtain ⟨i, hi⟩ := inClass_iff.1 ha
        obtain ⟨j, hj⟩ := inClass_iff.1 hb
        rcases h with ⟨hc, rfl⟩ | ⟨rfl, rfl⟩
        · obtain ⟨k, hk⟩ := inClass_iff.1 hc
          exact ⟨_, .three hi hj hk⟩
        · exact ⟨_, .two hi hj⟩
    · rintro ⟨bs, h⟩
      cases h with
      | four ha hb hc hd h =>
        simp [base64Regex, inClass_iff.2 ⟨_, ha⟩, inClass_iff.2 ⟨_, hb⟩, inClass_iff.2 ⟨_, hc⟩, inClass_iff.2 ⟨_, hd⟩,
          ih.2 ⟨_, h⟩]
      | three ha hb hc =>
        simp [base64Regex, inClass_iff.2 ⟨_, ha⟩, inClass_iff.2 ⟨_, hb⟩, inClass_iff.2 ⟨_, hc⟩, not_pad]
      | two ha hb =>
        simp [base64Regex, inClass_iff.2 ⟨_, ha⟩, inClass_iff.2 ⟨_, hb⟩, not_pad]

theorem fieldsFrom_word {cur w r : Text} (hw : ∀ c ∈ w, isSpace c = false) :
    fieldsFrom cur (w ++ r) = fieldsFrom (cur ++ w) r := by
  induction w generalizing cur with
  | nil => simp
  | cons c w ih =>
    simp only [List.cons_append, fieldsFrom, hw c (by simp), Bool.false_eq_true, if_false]
    rw [ih (fun c hc => hw c (by simp [hc]))]
    simp

/-- C75: `strings.Fields` gives the words. -/
theorem fields_of_words {s : Text} {ws : List Text} (h : Words isSpace s ws) : fields s = ws := by
  unfold fields
  induction h with
  | nil => rfl
  | space hc _ ih => simpa [fieldsFrom, hc] using ih
  | @word w r ws hne hw hr h ih =>
    rw [fieldsFrom_word hw, List.nil_append]
    match r, hr, ih with
    | [], _, ih =>
      have : ws = [] := by simpa [fieldsFrom] using ih.symm
      simp [fieldsFrom, hne, this]
    | c :: r', hr, ih =>
      have hc := hr c r' rfl
      simp only [fieldsFrom, hc, if_true, hne, if_false] at ih ⊢
      rw [ih]

/-- Every text has words. -/
theorem words_exist (s : Text) : ∃ ws, Words isSpace s ws := by
  have key : ∀ n (s : Text), s.length ≤ n → ∃ ws, Words isSpace s ws := by
    intro n
    induction n with
    | zero => intro s hs; exact ⟨[], by cases s with | nil => exact .nil | cons c s => simp at hs⟩
    | succ n ih =>
      intro s hs
      match s with
      | [] => exact ⟨[], .nil⟩
      | c :: s =>
        cases hc : isSpace c with
        | true =>
          obtain ⟨ws, h⟩ := ih s (by simpa using hs)
          exact ⟨ws, .space hc h⟩
        | false =>
          have hsplit : s.takeWhile (fun d => !isSpace d) ++ s.dropWhile (fun d => !isSpace d) = s :=
            List.takeWhile_append_dropWhile
          have hlen : (s.dropWhile fun d => !isSpace d).length ≤ s.length :=
            List.Sublist.length_le (List.dropWhile_sublist _)
          obtain ⟨ws, h⟩ := ih (s.dropWhile fun d => !isSpace d) (by simp at hs; omega)
          refine ⟨(c :: s.takeWhile fun d => !isSpace d) :: ws, ?_⟩
          have := Words.word (w := c :: s.takeWhile fun d => !isSpace d) (r := s.dropWhile fun d => !isSpace d)
            (by simp) ?_ ?_ h
          · simpa [hsplit] using this
          · intro d hd
            rcases List.mem_cons.1 hd with rfl | hd
            · exact hc
            · have := List.all_eq_true.1 (List.all_takeWhile (p := fun d => !isSpace d) (l := s)) d hd
              simpa using this
          · intro d r' he
            have := List.head?_dropWhile_not (fun d => !isSpace d) s
            rw [he] at this
            simpa using this
  exact key s.length s (Nat.le_refl _)

/-- C75: what `IsBinary` accepts: texts each of whose words decodes by itself. -/
theorem accepted_iff {s : Text} {ws : List Text} (h : Words isSpace s ws) :
    isBinary s = true ↔ ∀ w ∈ ws, ∃ bs, Decodes w bs := by
  rw [isBinary, fields_of_words h, List.all_eq_true]
  exact ⟨fun h w hw => (regex_iff w).1 (h w hw), fun h w hw => (regex_iff w).2 (h w hw)⟩

/-- C75: for texts without white space the recognition is exact. -/
theorem one_word_iff {s : Text} (h : ∀ c ∈ s, isSpace c = false) : isBinary s = true ↔ ∃ bs, Binary s bs := by
  have hf : s.filter (fun c => ¬ Blank c) = s := by
    rw [List.filter_eq_self]
    intro c hc
    have hs := h c hc
    simp only [decide_eq_true_eq]
    rintro (rfl | rfl | rfl | rfl) <;> revert hs <;> decide
  unfold Binary
  rw [hf]
  by_cases he : s = []
  · subst he
    exact ⟨fun _ => ⟨[], .nil⟩, fun _ => rfl⟩
  · have hw := Words.word (space := isSpace) he h (r := []) (by simp) .nil
    rw [List.append_nil] at hw
    rw [accepted_iff hw]
    simp

theorem blank_space {c : Char} (h : Blank c) : isSpace c = true := by
  rcases h with rfl | rfl | rfl | rfl <;> decide

/-- Without the white space the text is its words. -/
theorem filter_words {s : Text} {ws : List Text} (h : Words isSpace s ws) (hb : ∀ c ∈ s, isSpace c = true → Blank c) :
    s.filter (fun c => ¬ Blank c) = ws.flatten := by
  induction h with
  | nil => rfl
  | space hc _ ih =>
    have := hb _ (by simp) hc
    rw [List.filter_cons_of_neg (by simp [this])]
    exact ih fun c hc => hb c (by simp [hc])
  | word hne hw hr h ih =>
    rw [List.filter_append, ih fun c hc => hb c (by simp [hc]), List.flatten_cons, List.filter_eq_self.2]
    intro c hc
    have hs := hw c hc
    simp only [decide_eq_true_eq]
    intro hbl
    rw [blank_space hbl] at hs
    cases hs

/-- A text of whole groups before another text. -/
theorem decodes_append {v : Text} {y : List Nat} (hv : Decodes v y) :
    ∀ {u : Text} {x : List Nat}, Decodes u x → '=' ∉ u → Decodes (u ++ v) (x ++ y) := by
  intro u x hu
  induction hu with
  | nil => intro _; exact hv
  | four ha hb hc hd h ih => intro hn; exact .four ha hb hc hd (ih (by simp at hn; simp [hn]))
  | three => intro hn; simp at hn
  | two => intro hn; simp at hn

theorem decodes_split {v : Text} (hv : v ≠ []) :
    ∀ (u : Text) {x : List Nat}, u.length % 4 = 0 → Decodes (u ++ v) x → (∃ y, Decodes u y) ∧ ∃ z, Decodes v z
  | [], x, _, h => ⟨⟨[], .nil⟩, x, h⟩
  | [_], _, hl, _ => by simp at hl
  | [_, _], _, hl, _ => by simp at hl
  | [_, _, _], _, hl, _ => by simp at hl
  | a :: b :: c :: d :: u, x, hl, h => by
    have hl' : u.length % 4 = 0 := by simp at hl; omega
    generalize hS : a :: b :: c :: d :: u ++ v = S at h
    cases h with
    | nil => simp at hS
    | four ha hb hc hd h =>
      simp only [List.cons_append, List.cons.injEq] at hS
      obtain ⟨rfl, rfl, rfl, rfl, rfl⟩ := hS
      obtain ⟨⟨y, hy⟩, hz⟩ := decodes_split hv u hl' h
      exact ⟨⟨_, .four ha hb hc hd hy⟩, hz⟩
    | three => simp at hS; exact absurd hS.2.2.2.2.2 hv
    | two => simp at hS; exact absurd hS.2.2.2.2.2 hv

/-- C75 (partial): a binary scalar in lines is accepted when every line but the last has a length which is a multiple of
four. -/
theorem wrapped_accepted_partial {s : Text} {ws : List Text} {bs : List Nat} (h : Words isSpace s ws)
    (hb : ∀ c ∈ s, isSpace c = true → Blank c) (hlen : ∀ w ∈ ws.dropLast, w.length % 4 = 0) (hbin : Binary s bs) :
    isBinary s = true := by
  rw [accepted_iff h]
  have hne : ∀ w ∈ ws, w ≠ [] := by
    clear hbin hlen hb
    induction h with
    | nil => simp
    | space _ _ ih => exact ih
    | word hne _ _ _ ih =>
      intro w hw
      rcases List.mem_cons.1 hw with rfl | hw
      · exact hne
      · exact ih w hw
  unfold Binary at hbin
  rw [filter_words h hb] at hbin
  clear h hb
  induction ws generalizing bs with
  | nil => simp
  | cons w ws ih =>
    cases ws with
    | nil =>
      intro w' hw'
      simp at hw'
      subst hw'
      exact ⟨bs, by simpa using hbin⟩
    | cons v ws =>
      rw [List.flatten_cons] at hbin
      obtain ⟨h1, z, h2⟩ := decodes_split (by simp [hne v (by simp)]) w (hlen w (by simp)) hbin
      intro w' hw'
      rcases List.mem_cons.1 hw' with rfl | hw'
      · exact h1
      · exact ih (fun x hx => hlen x (by simp [hx])) h2 (fun x hx => hne x (List.mem_cons_of_mem _ hx)) w' hw'

/-- C75 (partial): an accepted text is a binary scalar when its white space is that of YAML and the sign `=` occurs only in
the last word. -/
theorem accepted_binary_partial {s : Text} {ws : List Text} (h : Words isSpace s ws)
    (hb : ∀ c ∈ s, isSpace c = true → Blank c) (hpad : ∀ w ∈ ws.dropLast, '=' ∉ w) (hacc : isBinary s = true) :
    ∃ bs, Binary s bs := by
  rw [accepted_iff h] at hacc
  unfold Binary
  rw [filter_words h hb]
  clear h hb
  induction ws with
  | nil => exact ⟨[], .nil⟩
  | cons w ws ih =>
    match ws, ih, hpad, hacc with
    | [], _, _, hacc => simpa using hacc w (by simp)
    | v :: ws, ih, hpad, hacc =>
      obtain ⟨y, hy⟩ := ih (fun x hx => hpad x (by simp [hx])) (fun x hx => hacc x (by simp [hx]))
      obtain ⟨x, hx⟩ := hacc w (by simp)
      exact ⟨x ++ y, decodes_append hy hx (hpad w (by simp))⟩

theorem val_get {n : Nat} (h : n < 64) : Val (alphabet[n]!) n := by
  have : ∀ n, n < 64 → alphabet[n]? = some (alphabet[n]!) := by decide +kernel
  exact this n h

/-- C75: the text of bytes decodes to them. -/
theorem encode_decodes (bs : List Nat) (h : ∀ b ∈ bs, b < 256) : Decodes (encode bs) bs := by
  match bs with
  | [] => exact .nil
  | [x] =>
    have hx : x < 256 := h x (by simp)
    have := Decodes.two (val_get (n := x / 4) (by omega)) (val_get (n := x % 4 * 16) (by omega))
    have e1 : x / 4 * 4 + x % 4 * 16 / 16 = x := by omega
    rw [e1] at this
    exact this
  | [x, y] =>
    have hx : x < 256 := h x (by simp)
    have hy : y < 256 := h y (by simp)
    have := Decodes.three (val_get (n := x / 4) (by omega)) (val_get (n := x % 4 * 16 + y / 16) (by omega))
      (val_get (n := y % 16 * 4) (by omega))
    have e1 : x / 4 * 4 + (x % 4 * 16 + y / 16) / 16 = x := by omega
    have e2 : (x % 4 * 16 + y / 16) % 16 * 16 + y % 16 * 4 / 4 = y := by omega
    rw [e1, e2] at this
    exact this
  | x :: y :: z :: bs =>
    have hx : x < 256 := h x (by simp)
    have hy : y < 256 := h y (by simp)
    have hz : z < 256 := h z (by simp)
    have := Decodes.four (val_get (n := x / 4) (by omega)) (val_get (n := x % 4 * 16 + y / 16) (by omega))
      (val_get (n := y % 16 * 4 + z / 64) (by omega)) (val_get (n := z % 64) (by omega))
      (encode_decodes bs fun b hb => h b (by simp [hb]))
    have e1 : x / 4 * 4 + (x % 4 * 16 + y / 16) / 16 = x := by omega
    have e2 : (x % 4 * 16 + y / 16) % 16 * 16 + (y % 16 * 4 + z / 64) / 4 = y := by omega
    have e3 : (y % 16 * 4 + z / 64) % 4 * 64 + z % 64 = z := by omega
    rw [e1, e2, e3] at this
    exact this

theorem encode_class (bs : List Nat) (h : ∀ b ∈ bs, b < 256) : ∀ c ∈ encode bs, isSpace c = false := by
  have hd := encode_decodes bs h
  have hv : ∀ {c n}, Val c n → isSpace c = false := by
    have : ∀ n, n < 64 → (alphabet[n]?.all fun c => !isSpace c) = true := by decide +kernel
    intro c n hc
    have hlt : n < 64 := by
      obtain ⟨h, _⟩ := List.getElem?_eq_some_iff.1 hc
      have : alphabet.length = 64 := by decide +kernel
      omega
    have := this n hlt
    rw [hc] at this
    simpa using this
  clear h
  generalize encode bs = s at hd
  have he : isSpace '=' = false := by decide
  induction hd with
  | nil => simp
  | four ha hb hc hd _ ih => simp [hv ha, hv hb, hv hc, hv hd]; exact ih
  | three ha hb hc => simp [hv ha, hv hb, hv hc, he]
  | two ha hb => simp [hv ha, hv hb, he]

/-- C75: the text of any bytes is accepted. -/
theorem encode_accepted (bs : List Nat) (h : ∀ b ∈ bs, b < 256) : isBinary (encode bs) = true := by
  have hc := encode_class bs h
  rw [one_word_iff hc]
  refine ⟨bs, ?_⟩
  unfold Binary
  rw [List.filter_eq_self.2]
  · exact encode_decodes bs h
  · intro c hm
    have := hc c hm
    simp only [decide_eq_true_eq]
    intro hb
    rw [blank_space hb] at this
    cases this

theorem val_unique {c : Char} {i j : Nat} (hi : Val c i) (hj : Val c j) : i = j := by
  have hn : alphabet.Nodup := by decide +kernel
  unfold Val at hi hj
  obtain ⟨h, _⟩ := List.getElem?_eq_some_iff.1 hi
  exact (List.getElem?_inj h hn).1 (hi.trans hj.symm)

theorem not_val_pad {n : Nat} : ¬ Val '=' n := fun h => by
  have := inClass_iff.2 ⟨n, h⟩
  rw [not_pad] at this
  cases this

/-- C75: a text decodes to one list of bytes only. -/
theorem decodes_unique {s : Text} {x y : List Nat} (hx : Decodes s x) (hy : Decodes s y) : x = y := by
  induction hx generalizing y with
  | nil => cases hy; rfl
  | four ha hb hc hd h ih =>
    cases hy with
    | four ha' hb' hc' hd' h' =>
      rw [val_unique ha ha', val_unique hb hb', val_unique hc hc', val_unique hd hd', ih h']
    | three => exact absurd hd not_val_pad
    | two => exact absurd hd not_val_pad
  | three ha hb hc =>
    cases hy with
    | four _ _ _ hd' _ => exact absurd hd' not_val_pad
    | three ha' hb' hc' => rw [val_unique ha ha', val_unique hb hb', val_unique hc hc']
    | two => exact absurd hc not_val_pad
  | two ha hb =>
    cases hy with
    | four _ _ _ hd' _ => exact absurd hd' not_val_pad
    | three _ _ hc' => exact absurd hc' not_val_pad
    | two ha' hb' => rw [val_unique ha ha', val_unique hb hb']

theorem decodes_dec {s : Text} (h : base64Regex s = true) : ∃ bs, Decodes s bs := (regex_iff s).1 h

theorem decodes_not {s : Text} (h : base64Regex s = false) : ¬ ∃ bs, Decodes s bs := fun hd => by
  rw [(regex_iff s).2 hd] at h
  cases h

/-- Violation of C75: a binary scalar whose lines are not multiples of four characters is refused. -/
theorem odd_lines_refused : ∃ s : Text, (∃ bs, Binary s bs) ∧ isBinary s = false :=
  ⟨"QU\nJD".toList, decodes_dec (by decide +kernel), by decide +kernel⟩

/-- Violation of C75: a text with a first line of 70 characters is refused, whatever follows.  (70 is the line length of
`encodeBase64` in yaml.v3 as far as is known here; its source is not in /repo.) -/
theorem lines_of_70_refused {s : Text} {w : Text} {ws : List Text} (h : Words isSpace s (w :: ws)) (hw : w.length = 70) :
    isBinary s = false := by
  have hlen : ∀ {u : Text} {x : List Nat}, Decodes u x → u.length % 4 = 0 := by
    intro u x hd
    induction hd with
    | nil => rfl
    | four _ _ _ _ _ ih => simp; omega
    | three => simp
    | two => simp
  rw [Bool.eq_false_iff]
  intro hacc
  obtain ⟨x, hx⟩ := (accepted_iff h).1 hacc w (by simp)
  have := hlen hx
  omega

/-- Violation of C75: padding inside the text is accepted. -/
theorem inner_padding_accepted : ∃ s : Text, isBinary s = true ∧ ¬ ∃ bs, Binary s bs :=
  ⟨"QQ== QUJD".toList, by decide +kernel, decodes_not (by decide +kernel)⟩

/-- Violation of C75: white space which is not that of YAML is accepted. -/
theorem foreign_space_accepted : ∃ s : Text, isBinary s = true ∧ ¬ ∃ bs, Binary s bs :=
  ⟨"QUJD\u00a0QUJD".toList, by decide +kernel, decodes_not (by decide +kernel)⟩

example : Binary "QUJD\n RA==".toList [65, 66, 67, 68] ∧ isBinary "QUJD\n RA==".toList = true :=
  ⟨encode_decodes [65, 66, 67, 68] (by decide), by decide +kernel⟩

example : Words isSpace "QUJD\n RA==".toList ["QUJD".toList, "RA==".toList] :=
  .word (w := "QUJD".toList) (by decide) (by decide) (by rintro c r' ⟨⟩; rfl)
    (.space rfl (.space rfl (.word (w := "RA==".toList) (r := []) (by decide) (by decide) (by simp) .nil)))

example : ∃ s w ws, Words isSpace s (w :: ws) ∧ w.length = 70 :=
  ⟨_, List.replicate 70 'A', [], .word (r := []) (by simp) (by simp; decide) (by simp) .nil, by simp⟩

end Verif.Props.Binary
