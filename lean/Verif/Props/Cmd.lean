import Verif.Model.Cmd

/-!
C58: the name of the output file.
-/

set_option linter.unusedSimpArgs false

namespace Verif.Props.Cmd

open Verif.Cmd

variable {lib : Lib}

/-- Words as in Go names: an upper case letter, then lower case letters (at least one). -/
structure IsWord (lib : Lib) (w : List Char) : Prop where
  shape : ∃ u l ls, w = u :: l :: ls ∧ lib.isUpper u = true ∧ ∀ c ∈ l :: ls, lib.isLower c = true

/-- What is used of package unicode: letters are not both upper and lower case, and the underscore and the rune 0 are neither,
nor what they are turned to. -/
structure Lawful (lib : Lib) : Prop where
  one : ∀ c, lib.isUpper c = true → lib.isLower c = false
  under : lib.isUpper '_' = false ∧ lib.isLower '_' = false
  zero : lib.isUpper zero = false ∧ lib.isLower zero = false
  lower : ∀ c, lib.isUpper c = true ∨ lib.isLower c = true → lib.toLower c ≠ '_'
  path : ∀ c, lib.toLower c = '/' → c = '/'

/-- Words in lower case with underscores between them. -/
def joined (lib : Lib) (ws : List (List Char)) : List Char := ((ws.map (List.map lib.toLower)).intersperse ['_']).flatten

theorem loop_lower (hl : Lawful lib) : ∀ (ls : List Char) (p c : Char) (rest : List Char), lib.isLower c = true →
    (∀ d ∈ ls, lib.isLower d = true) →
    (rest = [] → loop lib p c ls = (c :: ls).map lib.toLower) ∧
    (∀ n s, rest = n :: s → ∃ p' c', lib.isLower c' = true ∧ loop lib p c (ls ++ rest) = (c :: ls).map lib.toLower ++ loop lib c' n s ∧ (p' = c'))
  | [], p, c, rest, hc, _ => by
    have hu : lib.isUpper c = false := by
      cases h : lib.isUpper c with
      | false => rfl
      | true => rw [hl.one c h] at hc; cases hc
    have hne : c ≠ '_' := fun h => by rw [h, hl.under.2] at hc; cases hc
    have hz : c ≠ zero := fun h => by rw [h, hl.zero.2] at hc; cases hc
    refine ⟨fun _ => by simp [loop, hu], fun n s hr => ⟨c, c, hc, ?_, rfl⟩⟩
    subst hr
    simp [loop, emit, hne, hu, hz]
  | l :: ls, p, c, rest, hc, hls => by
    have hu : lib.isUpper c = false := by
      cases h : lib.isUpper c with
      | false => rfl
      | true => rw [hl.one c h] at hc; cases hc
    have hne : c ≠ '_' := fun h => by rw [h, hl.under.2] at hc; cases hc
    have hz : c ≠ zero := fun h => by rw [h, hl.zero.2] at hc; cases hc
    obtain ⟨h1, h2⟩ := loop_lower hl ls c l rest (hls l (by simp)) (fun d hd => hls d (by simp [hd]))
    have he : emit lib p c l = [lib.toLower c] := by simp [emit, hne, hu, hz]
    refine ⟨fun hr => by rw [loop, h1 hr, he]; simp, fun n s hr => ?_⟩
    obtain ⟨p', c', hc', h3, h4⟩ := h2 n s hr
    exact ⟨p', c', hc', by rw [List.cons_append, loop, h3, he]; simp, h4⟩

theorem loop_word (hl : Lawful lib) {u l : Char} {ls : List Char} {p : Char} (hu : lib.isUpper u = true)
    (hp : lib.isUpper p = false) (hls : ∀ c ∈ l :: ls, lib.isLower c = true) (rest : List Char) :
    (rest = [] → loop lib p u (l :: ls) = (if lib.isLower p then ['_'] else []) ++ (u :: l :: ls).map lib.toLower) ∧
    (∀ n s, rest = n :: s → ∃ c', lib.isLower c' = true ∧ loop lib p u (l :: ls ++ rest) =
      (if lib.isLower p then ['_'] else []) ++ (u :: l :: ls).map lib.toLower ++ loop lib c' n s) := by
  have hne : u ≠ '_' := fun h => by rw [h, hl.under.1] at hu; cases hu
  have he : emit lib p u l = (if lib.isLower p then ['_'] else []) ++ [lib.toLower u] := by simp [emit, hne, hu, hp]
  obtain ⟨h1, h2⟩ := loop_lower hl ls u l rest (hls l (by simp)) (fun d hd => hls d (by simp [hd]))
  refine ⟨fun hr => by rw [loop, h1 hr, he]; simp, fun n s hr => ?_⟩
  obtain ⟨p', c', hc', h3, -⟩ := h2 n s hr
  exact ⟨c', hc', by rw [List.cons_append, loop, h3, he]; simp⟩

theorem loop_words (hl : Lawful lib) : ∀ (ws : List (List Char)) (p c : Char) (s w : List Char), (∀ w ∈ ws, IsWord lib w) → IsWord lib w →
    c :: s = w ++ ws.flatten → lib.isUpper p = false →
    loop lib p c s = (if lib.isLower p then ['_'] else []) ++ joined lib (w :: ws)
  | [], p, c, s, w, _, hw, he, hp => by
    obtain ⟨u, l, ls, rfl, hu, hls⟩ := hw.shape
    simp only [List.flatten_nil, List.append_nil, List.cons.injEq] at he
    obtain ⟨rfl, rfl⟩ := he
    rw [(loop_word hl hu hp hls []).1 rfl]
    simp [joined]
  | w' :: ws, p, c, s, w, hws, hw, he, hp => by
    obtain ⟨u, l, ls, rfl, hu, hls⟩ := hw.shape
    obtain ⟨u', l', ls', rfl, hu', hls'⟩ := (hws w' (by simp)).shape
    simp only [List.flatten_cons, List.cons_append, List.cons.injEq] at he
    obtain ⟨rfl, rfl⟩ := he
    obtain ⟨c', hc', h⟩ := (loop_word hl hu hp hls (u' :: l' :: (ls' ++ ws.flatten))).2 _ _ rfl
    have hcu : lib.isUpper c' = false := by
      cases h : lib.isUpper c' with
      | false => rfl
      | true => rw [hl.one c' h] at hc'; cases hc'
    have ih := loop_words hl ws c' u' (l' :: (ls' ++ ws.flatten)) (u' :: l' :: ls') (fun x hx => hws x (by simp [hx]))
      (hws _ (by simp)) (by simp) hcu
    rw [hc'] at ih
    simp only [List.cons_append, List.append_assoc] at h ⊢
    rw [h, ih]
    simp [joined, List.intersperse]

/-- A name made of words gives these words in lower case, with underscores between them.  Missing for the property: names with
abbreviations, digits and underscores (`names_collide`, `ignored_file`). -/
theorem snake_case_partial (hl : Lawful lib) (ws : List (List Char)) (h : ∀ w ∈ ws, IsWord lib w) :
    toSnakeCase lib ws.flatten = joined lib ws := by
  cases ws with
  | nil => rfl
  | cons w ws =>
    obtain ⟨u, l, ls, rfl, hu, hls⟩ := (h w (by simp)).shape
    have hz : emit lib zero zero u = [] := by
      have : zero ≠ '_' := by decide +kernel
      simp [emit, this, hl.zero.1]
    show emit lib zero zero u ++ loop lib zero u _ = _
    rw [hz, loop_words hl ws zero u _ (u :: l :: ls) (fun x hx => h x (by simp [hx])) (h _ (by simp)) rfl hl.zero.1, hl.zero.2]
    rfl

theorem loop_upper (hl : Lawful lib) : ∀ (as : List Char) (p a : Char), lib.isLower p = false → lib.isUpper a = true →
    (∀ c ∈ as, lib.isUpper c = true) → ∀ (u l : Char) (s : List Char), lib.isUpper u = true → lib.isLower l = true →
    loop lib p a (as ++ u :: l :: s) = (a :: as).map lib.toLower ++ '_' :: loop lib zero u (l :: s) := by
  have hne : ∀ c, lib.isUpper c = true → c ≠ '_' := fun c hc h => by rw [h, hl.under.1] at hc; cases hc
  intro as
  induction as with
  | nil =>
    intro p a hp ha _ u l s hu hlow
    have h1 : emit lib p a u = [lib.toLower a] := by simp [emit, hne a ha, ha, hp, hl.one u hu]
    have h2 : emit lib a u l = ['_', lib.toLower u] := by simp [emit, hne u hu, hu, ha, hlow]
    have h3 : emit lib zero u l = [lib.toLower u] := by simp [emit, hne u hu, hu, hl.zero.1, hl.zero.2]
    show emit lib p a u ++ (emit lib a u l ++ loop lib u l s) = [lib.toLower a] ++ '_' :: (emit lib zero u l ++ loop lib u l s)
    rw [h1, h2, h3]
    rfl
  | cons b as ih =>
    intro p a hp ha has u l s hu hlow
    have hb := has b (by simp)
    have h1 : emit lib p a b = [lib.toLower a] := by simp [emit, hne a ha, ha, hp, hl.one b hb]
    show emit lib p a b ++ loop lib a b (as ++ u :: l :: s) = _
    rw [h1, ih a b (hl.one a ha) hb (fun c hc => has c (by simp [hc])) u l s hu hlow]
    rfl

/-- An abbreviation in upper case letters before the words stays together, and an underscore separates it from them. -/
theorem abbreviation_partial (hl : Lawful lib) (as : List Char) (ha : as ≠ []) (has : ∀ c ∈ as, lib.isUpper c = true)
    (ws : List (List Char)) (hw : ws ≠ []) (h : ∀ w ∈ ws, IsWord lib w) :
    toSnakeCase lib (as ++ ws.flatten) = as.map lib.toLower ++ '_' :: joined lib ws := by
  cases as with
  | nil => exact absurd rfl ha
  | cons a as =>
    cases ws with
    | nil => exact absurd rfl hw
    | cons w ws =>
      obtain ⟨u, l, ls, rfl, hu, hls⟩ := (h w (by simp)).shape
      have hz : emit lib zero zero a = [] := by
        have : zero ≠ '_' := by decide +kernel
        simp [emit, this, hl.zero.1]
      show emit lib zero zero a ++ loop lib zero a (as ++ (u :: l :: (ls ++ ws.flatten))) = _
      rw [hz, loop_upper hl as zero a hl.zero.2 (has a (by simp)) (fun c hc => has c (by simp [hc])) u l _ hu (hls l (by simp)),
        loop_words hl ws zero u (l :: (ls ++ ws.flatten)) (u :: l :: ls) (fun x hx => h x (by simp [hx])) (h _ (by simp)) rfl hl.zero.1, hl.zero.2]
      rfl

theorem joined_inj : ∀ (ws ws' : List (List Char)), (∀ w ∈ ws, w ≠ [] ∧ '_' ∉ w) → (∀ w ∈ ws', w ≠ [] ∧ '_' ∉ w) →
    (ws.intersperse ['_']).flatten = (ws'.intersperse ['_']).flatten → ws = ws' := by
  have hsplit : ∀ (a b x y : List Char), '_' ∉ a → '_' ∉ b → a ++ '_' :: x = b ++ '_' :: y → a = b ∧ x = y := by
    intro a
    induction a with
    | nil =>
      intro b x y _ hb h
      cases b with
      | nil => exact ⟨rfl, by simpa using h⟩
      | cons c b =>
        simp only [List.nil_append, List.cons_append, List.cons.injEq] at h
        exact absurd (List.mem_cons.2 (.inl h.1)) hb
    | cons c a ih =>
      intro b x y ha hb h
      cases b with
      | nil =>
        simp only [List.nil_append, List.cons_append, List.cons.injEq] at h
        exact absurd (List.mem_cons.2 (.inl h.1.symm)) ha
      | cons d b =>
        simp only [List.cons_append, List.cons.injEq] at h
        simp only [List.mem_cons, not_or] at ha hb
        obtain ⟨rfl, rfl⟩ := ih b x y ha.2 hb.2 h.2
        exact ⟨by rw [h.1], rfl⟩
  have hone : ∀ (a b x : List Char), '_' ∉ a → a = b ++ '_' :: x → False := fun a b x ha h => ha (by rw [h]; simp)
  intro ws
  induction ws with
  | nil =>
    intro ws' _ h' he
    cases ws' with
    | nil => rfl
    | cons w ws' =>
      have hw := (h' w (by simp)).1
      cases ws' with
      | nil => simp [List.intersperse] at he; exact absurd he hw
      | cons v vs => simp [List.intersperse] at he
  | cons w ws ih =>
    intro ws' h h' he
    cases ws' with
    | nil =>
      have hw := (h w (by simp)).1
      cases ws with
      | nil => simp [List.intersperse] at he; exact absurd he hw
      | cons v vs => simp [List.intersperse] at he
    | cons w' ws' =>
      cases ws with
      | nil =>
        cases ws' with
        | nil => simpa [List.intersperse] using he
        | cons v vs =>
          simp [List.intersperse] at he
          exact (hone _ _ _ (h w (by simp)).2 he).elim
      | cons v vs =>
        cases ws' with
        | nil =>
          simp [List.intersperse] at he
          exact (hone _ _ _ (h' w' (by simp)).2 he.symm).elim
        | cons v' vs' =>
          have he' : w ++ '_' :: ((v :: vs).intersperse ['_']).flatten = w' ++ '_' :: ((v' :: vs').intersperse ['_']).flatten := by
            simpa [List.intersperse] using he
          obtain ⟨rfl, h2⟩ := hsplit _ _ _ _ (h w (by simp)).2 (h' w' (by simp)).2 he'
          rw [ih (v' :: vs') (fun x hx => h x (by simp [hx])) (fun x hx => h' x (by simp [hx])) h2]

/-- Types with different words have different files. -/
theorem files_differ_partial (hl : Lawful lib) (ws ws' : List (List Char)) (h : ∀ w ∈ ws, IsWord lib w) (h' : ∀ w ∈ ws', IsWord lib w)
    (name : List Char) (hn : outputName lib [] ws.flatten = some name) (hn' : outputName lib [] ws'.flatten = some name) :
    ws.map (List.map lib.toLower) = ws'.map (List.map lib.toLower) := by
  have hname : ∀ vs : List (List Char), (∀ w ∈ vs, IsWord lib w) → outputName lib [] vs.flatten = some name →
      joined lib vs ++ "_yamly.go".toList = name := by
    intro vs hv ho
    unfold outputName at ho
    simp only [ne_eq, not_true_eq_false, if_false, snake_case_partial hl vs hv] at ho
    split at ho
    · cases ho
    · exact Option.some.inj ho
  have he := (hname ws h hn).trans (hname ws' h' hn').symm
  have hj := List.append_cancel_right he
  have hw : ∀ vs : List (List Char), (∀ w ∈ vs, IsWord lib w) → ∀ w ∈ vs.map (List.map lib.toLower), w ≠ [] ∧ '_' ∉ w := by
    intro vs hv w hm
    obtain ⟨v, hvm, rfl⟩ := List.mem_map.1 hm
    obtain ⟨u, l, ls, rfl, hu, hls⟩ := (hv v hvm).shape
    refine ⟨by simp, ?_⟩
    simp only [List.mem_map, not_exists, not_and]
    intro c hc
    refine hl.lower c ?_
    rcases List.mem_cons.1 hc with rfl | hc
    · exact .inl hu
    · exact .inr (hls c hc)
  exact joined_inj _ _ (hw ws h) (hw ws' h') hj

/-- The functions of package unicode on ASCII. -/
def ascii : Lib := ⟨Char.isUpper, Char.isLower, fun c => if c.isUpper then Char.ofNat (c.toNat + 32) else c⟩

theorem ascii_upper {c : Char} (h : c.isUpper = true) : 65 ≤ c.toNat ∧ c.toNat ≤ 90 := by
  simp only [Char.isUpper, Bool.and_eq_true, decide_eq_true_eq, UInt32.le_iff_toNat_le, ge_iff_le] at h
  exact h

theorem ascii_toLower {c : Char} (h : c.isUpper = true) : (Char.ofNat (c.toNat + 32)).toNat = c.toNat + 32 := by
  have := ascii_upper h
  have hv : (c.toNat + 32).isValidChar := .inl (by omega)
  simp only [Char.ofNat, hv, dif_pos]
  rfl

theorem ascii_lawful : Lawful ascii where
  one c h := by
    simp only [ascii, Char.isUpper, Char.isLower, Bool.and_eq_true, decide_eq_true_eq, Bool.and_eq_false_iff, decide_eq_false_iff_not, UInt32.le_iff_toNat_le, ge_iff_le] at h ⊢
    simp at h ⊢
    omega
  under := by decide
  zero := by decide
  lower c h he := by
    simp only [ascii] at he h
    split at he
    · rename_i hu
      have h1 := ascii_toLower hu
      have h2 := ascii_upper hu
      rw [he] at h1
      have : ('_' : Char).toNat = 95 := rfl
      omega
    · subst he
      exact absurd h (by decide)
  path c he := by
    simp only [ascii] at he
    split at he
    · rename_i hu
      have h1 := ascii_toLower hu
      have h2 := ascii_upper hu
      rw [he] at h1
      have : ('/' : Char).toNat = 47 := rfl
      omega
    · exact he

/-- the hypotheses are met -/
example : IsWord ascii "Foo".toList ∧ IsWord ascii "Bar".toList ∧ outputName ascii [] "FooBar".toList = some "foo_bar_yamly.go".toList :=
  ⟨⟨'F', 'o', ['o'], by decide, by decide, by decide⟩, ⟨'B', 'a', ['r'], by decide, by decide, by decide⟩, by decide +kernel⟩

/-- the hypotheses are met -/
example : (∀ c ∈ "HTTP".toList, ascii.isUpper c = true) ∧ IsWord ascii "Server".toList ∧
    toSnakeCase ascii "HTTPServer".toList = "http_server".toList :=
  ⟨by decide, ⟨'S', 'e', "rver".toList, by decide, by decide, by decide⟩, by decide +kernel⟩

/-- The property fails for other names: `FooBar` and `Foo_Bar` are generated into the same file, the second overwrites the
code of the first; so are `A1B` and `A1b`. -/
theorem names_collide : outputName ascii [] "FooBar".toList = outputName ascii [] "Foo_Bar".toList ∧
    outputName ascii [] "A1B".toList = outputName ascii [] "A1b".toList := by decide +kernel

/-- The file for a type `_T` begins with an underscore: the Go tools ignore it. -/
theorem ignored_file : outputName ascii [] "_T".toList = some "_t_yamly.go".toList := by decide +kernel

theorem takeWhile_all : ∀ l : List Char, (∀ c ∈ l, c ≠ '/') → l.takeWhile (· ≠ '/') = l
  | [], _ => rfl
  | c :: l, h => by
    have hc : c ≠ '/' := h c (by simp)
    simp only [List.takeWhile_cons, ne_eq, hc, not_false_eq_true, decide_true, if_true]
    have ih := takeWhile_all l (fun d hd => h d (by simp [hd]))
    simp only [ne_eq, decide_not] at ih ⊢
    rw [ih]

/-- A default name is never refused, if there is no slash in the name of the type. -/
theorem default_accepted (hl : Lawful lib) (type : List Char) (h : '/' ∉ type) : (outputName lib [] type).isSome = true := by
  have hlow : ∀ c, c ≠ '/' → lib.toLower c ≠ '/' := fun c hc he => hc (hl.path c he)
  have hsnake : '/' ∉ toSnakeCase lib type := by
    have hemit : ∀ p c n, c ≠ '/' → '/' ∉ emit lib p c n := by
      intro p c n hc
      have := Ne.symm (hlow c hc)
      unfold emit
      split <;> split <;> try split
      all_goals simp [this]
    have hloop : ∀ (s : List Char) (p c : Char), c ≠ '/' → '/' ∉ s → '/' ∉ loop lib p c s := by
      intro s
      induction s with
      | nil =>
        intro p c hc _
        have := Ne.symm (hlow c hc)
        unfold loop
        split <;> simp [this]
      | cons n s ih =>
        intro p c hc hs
        simp only [List.mem_cons, not_or] at hs
        simp only [loop, List.mem_append, not_or]
        exact ⟨hemit p c n hc, ih c n (Ne.symm hs.1) hs.2⟩
    cases type with
    | nil => simp [toSnakeCase]
    | cons c s =>
      simp only [List.mem_cons, not_or] at h
      simp only [toSnakeCase, List.mem_append, not_or]
      exact ⟨hemit _ _ _ (by decide +kernel), hloop s _ c (Ne.symm h.1) h.2⟩
  unfold outputName
  simp only [ne_eq, not_true_eq_false, if_false]
  have hbase : base (toSnakeCase lib type ++ "_yamly.go".toList) = toSnakeCase lib type ++ "_yamly.go".toList := by
    have hns : ∀ c ∈ (toSnakeCase lib type ++ "_yamly.go".toList).reverse, c ≠ '/' := by
      intro c hc he
      subst he
      simp [hsnake] at hc
    have hd : (toSnakeCase lib type ++ "_yamly.go".toList).reverse.dropWhile (· = '/') = (toSnakeCase lib type ++ "_yamly.go".toList).reverse := by
      rw [List.reverse_append]
      rfl
    unfold base
    rw [if_neg (by simp), hd, takeWhile_all _ hns, if_neg (by simp), List.reverse_reverse]
  rw [hbase]
  simp

example : '/' ∉ "FooBar".toList ∧ (outputName ascii [] "FooBar".toList).isSome = true := by decide +kernel

end Verif.Props.Cmd
