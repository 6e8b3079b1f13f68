import Verif.Spec.GoInteger
import Verif.Lemmas.CoreSchema

/-! `strconv.ParseUint` and `ParseInt` with the base 0 accept the integer literals of Go. -/

set_option linter.unusedSimpArgs false

namespace Verif.GoInteger

open Verif.Strconv Verif.CoreSchema Verif.Schema

theorem hex_of_digitVal {c : Char} {d : Nat} (h : digitVal c = some d) (hd : d < 16) : IsHexDigit c ∧ digit c = d := by
  have h0 : '0'.toNat = 48 := rfl
  have h9 : '9'.toNat = 57 := rfl
  have ha : 'a'.toNat = 97 := rfl
  have hz : 'z'.toNat = 122 := rfl
  have hA : 'A'.toNat = 65 := rfl
  have hZ : 'Z'.toNat = 90 := rfl
  have hx : Schema.isHex c = true := by
    unfold digitVal at h
    simp only [Schema.isHex, Schema.isDec, Bool.or_eq_true, Bool.and_eq_true, decide_eq_true_eq]
    have hf : 'f'.toNat = 102 := rfl
    have hF : 'F'.toNat = 70 := rfl
    split at h
    · omega
    · split at h
      · injection h; omega
      · split at h
        · injection h; omega
        · cases h
  have hx := (Schema.isHex_iff c).1 hx
  refine ⟨hx, ?_⟩
  rw [digitVal_hex hx] at h
  injection h

theorem hex_ne_under {c : Char} (h : IsHexDigit c) : c ≠ '_' := by
  rintro rfl
  revert h
  decide

theorem digitVal_under : digitVal '_' = none := by decide

/-- One round of the digit loop, for a digit. -/
theorem digitLoop_digit {base maxVal : Nat} {us : Bool} {c : Char} {cs : List Char} {n : Nat} {seen : Bool} (hc : IsHexDigit c)
    (hb : digit c < base) (hm : n * base + digit c ≤ maxVal) :
    digitLoop base maxVal us (c :: cs) n seen = digitLoop base maxVal us cs (n * base + digit c) seen := by
  simp [digitLoop, hex_ne_under hc, digitVal_hex hc, Nat.not_le.2 hb, Nat.not_lt.2 hm]

theorem digitLoop_cons_ok {base maxVal : Nat} {us : Bool} {c : Char} {cs : List Char} {n m : Nat} {seen seen' : Bool} (h16 : base ≤ 16)
    (hu : c ≠ '_' ∨ us = false) (h : digitLoop base maxVal us (c :: cs) n seen = .ok (m, seen')) :
    IsHexDigit c ∧ digit c < base ∧ n * base + digit c ≤ maxVal ∧
      digitLoop base maxVal us cs (n * base + digit c) seen = .ok (m, seen') := by
  unfold digitLoop at h
  rw [if_neg (by rcases hu with hu | hu <;> simp [hu])] at h
  cases hv : digitVal c with
  | none => simp [hv] at h
  | some d =>
    simp only [hv] at h
    split at h
    · cases h
    · split at h
      · cases h
      · obtain ⟨hc, rfl⟩ := hex_of_digitVal hv (by omega)
        exact ⟨hc, by omega, by omega, h⟩

theorem seen_stays {base maxVal : Nat} : ∀ {cs : List Char} {n m : Nat} {seen' : Bool},
    digitLoop base maxVal true cs n true = .ok (m, seen') → seen' = true
  | [], n, m, seen', h => by simp [digitLoop] at h; exact h.2
  | c :: cs, n, m, seen', h => by
    unfold digitLoop at h
    split at h
    · exact seen_stays h
    · split at h
      · cases h
      · split at h
        · cases h
        · split at h
          · cases h
          · exact seen_stays h

theorem underscoreLoop_digit {hex : Bool} {c : Char} {cs : List Char} {saw : Char} (hc : IsHexDigit c)
    (hd : digit c < 10 ∨ hex = true) : underscoreLoop hex (c :: cs) saw = underscoreLoop hex cs '0' := by
  have h16 : digit c < 16 := by
    have : ∀ c ∈ "0123456789abcdefABCDEF".toList, digit c < 16 := by decide
    exact this c hc
  have : digit c < 10 ∨ hex = true ∧ digit c < 16 := hd.imp id (fun h => ⟨h, h16⟩)
  simp [underscoreLoop, digitVal_hex hc, this]

/-- The digits the loop accepts, if the underscores are in order. -/
theorem tail_of {base maxVal : Nat} {hex : Bool} (h16 : base ≤ 16) (hx : base ≤ 10 ∨ hex = true) :
    ∀ {cs : List Char} {n m : Nat} {seen seen' : Bool}, digitLoop base maxVal true cs n seen = .ok (m, seen') →
      (underscoreLoop hex cs '0' = true → Tail base n cs m) ∧
        (underscoreLoop hex cs '_' = true → Tail base n ('_' :: cs) m)
  | [], n, m, seen, seen', h => by
    simp [digitLoop] at h
    obtain ⟨rfl, _⟩ := h
    exact ⟨fun _ => .done _, fun hu => by simp [underscoreLoop] at hu⟩
  | c :: cs, n, m, seen, seen', h => by
    by_cases hc : c = '_'
    · subst hc
      have h' : digitLoop base maxVal true cs n true = .ok (m, seen') := by simpa [digitLoop] using h
      have ih := tail_of h16 hx h'
      refine ⟨fun hu => ih.2 (by simpa [underscoreLoop, digitVal_under] using hu), fun hu => ?_⟩
      simp [underscoreLoop, digitVal_under] at hu
    · obtain ⟨hh, hb, hm, h'⟩ := digitLoop_cons_ok h16 (.inl hc) h
      have ih := tail_of h16 hx h'
      have hd : digit c < 10 ∨ hex = true := by
        rcases hx with hx | hx
        · left; omega
        · exact .inr hx
      exact ⟨fun hu => .digit hh hb (ih.1 (by rwa [underscoreLoop_digit hh hd] at hu)),
        fun hu => .parted hh hb (ih.1 (by rwa [underscoreLoop_digit hh hd] at hu))⟩

/-- … and if there are none. -/
theorem tail_of_plain {base maxVal : Nat} (h16 : base ≤ 16) : ∀ {cs : List Char} {n m : Nat} {seen : Bool},
    digitLoop base maxVal true cs n seen = .ok (m, false) → Tail base n cs m
  | [], n, m, seen, h => by
    simp [digitLoop] at h
    obtain ⟨rfl, _⟩ := h
    exact .done _
  | c :: cs, n, m, seen, h => by
    by_cases hc : c = '_'
    · subst hc
      have h' : digitLoop base maxVal true cs n true = .ok (m, false) := by simpa [digitLoop] using h
      cases seen_stays h'
    · obtain ⟨hh, hb, hm, h'⟩ := digitLoop_cons_ok h16 (.inl hc) h
      exact .digit hh hb (tail_of_plain h16 h')

theorem bound_of {base maxVal : Nat} : ∀ {cs : List Char} {n m : Nat} {seen seen' : Bool},
    digitLoop base maxVal true cs n seen = .ok (m, seen') → n ≤ maxVal → m ≤ maxVal
  | [], n, m, seen, seen', h, hn => by simp [digitLoop] at h; omega
  | c :: cs, n, m, seen, seen', h, hn => by
    unfold digitLoop at h
    split at h
    · exact bound_of h hn
    · split at h
      · cases h
      · split at h
        · cases h
        · split at h
          · cases h
          · exact bound_of h (by omega)

theorem Tail.le {base : Nat} (hb : 0 < base) {n m : Nat} {cs : List Char} (h : Tail base n cs m) : n ≤ m := by
  induction h with
  | done => exact Nat.le_refl _
  | @digit n m c cs hc hd h ih => have := Nat.le_mul_of_pos_right n hb; omega
  | @parted n m c cs hc hd h ih => have := Nat.le_mul_of_pos_right n hb; omega

/-- The loops accept the digits of a literal. -/
theorem Tail.run {base maxVal : Nat} {hex : Bool} (hp : 0 < base) (hx : base ≤ 10 ∨ hex = true) {n m : Nat} {cs : List Char}
    (h : Tail base n cs m) (hm : m ≤ maxVal) :
    (∀ seen, ∃ seen', digitLoop base maxVal true cs n seen = .ok (m, seen')) ∧ underscoreLoop hex cs '0' = true := by
  induction h with
  | done => exact ⟨fun seen => ⟨seen, rfl⟩, by simp [underscoreLoop]⟩
  | @digit n m c cs hc hd h ih =>
    have := h.le hp
    have hd' : CoreSchema.digit c < 10 ∨ hex = true := hx.imp (by omega) id
    refine ⟨fun seen => ?_, by rw [underscoreLoop_digit hc hd']; exact (ih hm).2⟩
    rw [digitLoop_digit hc hd (by omega)]
    exact (ih hm).1 seen
  | @parted n m c cs hc hd h ih =>
    have := h.le hp
    have hd' : CoreSchema.digit c < 10 ∨ hex = true := hx.imp (by omega) id
    refine ⟨fun seen => ?_, ?_⟩
    · have : digitLoop base maxVal true ('_' :: c :: cs) n seen = digitLoop base maxVal true (c :: cs) n true := by
        simp [digitLoop]
      rw [this, digitLoop_digit hc hd (by omega)]
      exact (ih hm).1 true
    · have : underscoreLoop hex ('_' :: c :: cs) '0' = underscoreLoop hex (c :: cs) '_' := by
        simp [underscoreLoop, digitVal_under]
      rw [this, underscoreLoop_digit hc hd']
      exact (ih hm).2

/-- The conversion, given the base and the digits. -/
theorem parseUint0_eq {s ds : List Char} {base bits n : Nat} (hs : s ≠ []) (h : splitBase s = (base, ds)) :
    parseUint0 s bits = .ok n ↔ ∃ seen, digitLoop base (2 ^ bits - 1) true ds 0 false = .ok (n, seen) ∧
      (seen = true → underscoreOK s = true) := by
  unfold parseUint0
  rw [if_neg hs, h]
  simp only
  cases hl : digitLoop base (2 ^ bits - 1) true ds 0 false with
  | error e => simp
  | ok p =>
    obtain ⟨m, seen⟩ := p
    cases hu : underscoreOK s <;> cases seen <;> simp

theorem letters_cases {x : Char} {base : Nat} (h : (x, base) ∈ letters) :
    0 < base ∧ base ≤ 16 ∧ (base ≤ 10 ∨ decide (x = 'x' ∨ x = 'X') = true) ∧ x ≠ '_' ∧ ¬ (IsHexDigit x ∧ digit x < 8) ∧
      (∀ d r, splitBase ('0' :: x :: d :: r) = (base, d :: r)) ∧
      ∀ r, underscoreOK ('0' :: x :: r) = underscoreLoop (decide (x = 'x' ∨ x = 'X')) r '0' := by
  simp only [letters, List.mem_cons, List.not_mem_nil, or_false, Prod.mk.injEq] at h
  rcases h with ⟨rfl, rfl⟩ | ⟨rfl, rfl⟩ | ⟨rfl, rfl⟩ | ⟨rfl, rfl⟩ | ⟨rfl, rfl⟩ | ⟨rfl, rfl⟩ <;>
    exact ⟨by decide, by decide, by decide, by decide, by decide, fun d r => rfl, fun r => rfl⟩

theorem not_letter {x : Char} (h : ∀ base, (x, base) ∉ letters) :
    (∀ r, splitBase ('0' :: x :: r) = (8, x :: r)) ∧ ∀ r, underscoreOK ('0' :: x :: r) = underscoreLoop false ('0' :: x :: r) '^' := by
  have h1 : x ≠ 'b' := by rintro rfl; exact h 2 (by decide)
  have h2 : x ≠ 'B' := by rintro rfl; exact h 2 (by decide)
  have h3 : x ≠ 'o' := by rintro rfl; exact h 8 (by decide)
  have h4 : x ≠ 'O' := by rintro rfl; exact h 8 (by decide)
  have h5 : x ≠ 'x' := by rintro rfl; exact h 16 (by decide)
  have h6 : x ≠ 'X' := by rintro rfl; exact h 16 (by decide)
  refine ⟨fun r => ?_, fun r => by simp [underscoreOK, h1, h2, h3, h4, h5, h6]⟩
  cases r <;> simp [splitBase, h1, h2, h3, h4, h5, h6]

theorem zero_hex : IsHexDigit '0' ∧ digit '0' < 10 := by decide

/-- `strconv.ParseUint` with the base 0. -/
theorem parseUint0_iff (s : List Char) (bits n : Nat) : parseUint0 s bits = .ok n ↔ Literal s n ∧ n < 2 ^ bits := by
  have hpos : 0 < 2 ^ bits := Nat.two_pow_pos bits
  match s with
  | [] => 
    constructor
    · intro h; simp [parseUint0] at h
    · rintro ⟨h, _⟩; cases h
  | c :: cs =>
    by_cases h0 : c = '0'
    · subst h0
      match cs with
      | [] =>
        rw [parseUint0_eq (by simp) (show splitBase ['0'] = (8, []) from rfl)]
        constructor
        · rintro ⟨seen, h, _⟩
          simp [digitLoop] at h
          obtain ⟨rfl, _⟩ := h
          exact ⟨.octal (.done 0), hpos⟩
        · rintro ⟨h, hn⟩
          cases h with
          | decimal hc h0 h => exact absurd rfl h0
          | octal h => cases h; exact ⟨false, rfl, by simp⟩
      | x :: r =>
        by_cases hx : ∃ base, (x, base) ∈ letters
        · obtain ⟨base, hx⟩ := hx
          obtain ⟨hp, h16, hb, hu, ho, hsp, hok⟩ := letters_cases hx
          match r with
          | [] =>
            rw [parseUint0_eq (by simp) (show splitBase ['0', x] = (8, [x]) by simp [splitBase])]
            constructor
            · rintro ⟨seen, h, _⟩
              have := digitLoop_cons_ok (by decide) (.inl hu) h
              exact absurd ⟨this.1, this.2.1⟩ ho
            · rintro ⟨h, hn⟩
              cases h with
              | decimal hc h0 h => exact absurd rfl h0
              | octal h =>
                cases h with
                | digit hc hb h => exact absurd ⟨hc, hb⟩ ho
              | lettered hx hn h => exact absurd rfl hn
          | d :: r =>
            rw [parseUint0_eq (by simp) (hsp d r), hok]
            constructor
            · rintro ⟨seen, h, hs⟩
              refine ⟨.lettered hx (by simp) ?_, ?_⟩
              · cases seen with
                | false => exact tail_of_plain h16 h
                | true => exact (tail_of h16 hb h).1 (hs rfl)
              · have := bound_of h (Nat.zero_le _); omega
            · rintro ⟨h, hn⟩
              have ht : Tail base 0 (d :: r) n := by
                cases h with
                | decimal hc h0 h => exact absurd rfl h0
                | octal h =>
                  cases h with
                  | digit hc hb h => exact absurd ⟨hc, hb⟩ ho
                  | parted hc hb h => exact absurd rfl hu
                | lettered hx' hn h =>
                  have : ∀ p ∈ letters, ∀ q ∈ letters, p.1 = q.1 → p.2 = q.2 := by decide
                  have := this _ hx _ hx' rfl
                  simp only at this
                  rwa [this]
              have hr := ht.run (maxVal := 2 ^ bits - 1) hp hb (by omega)
              obtain ⟨seen, h⟩ := hr.1 false
              exact ⟨seen, h, fun _ => hr.2⟩
        · obtain ⟨hsp, hok⟩ := not_letter (x := x) (fun base h => hx ⟨base, h⟩)
          rw [parseUint0_eq (by simp) (hsp r), hok, underscoreLoop_digit zero_hex.1 (.inl zero_hex.2)]
          constructor
          · rintro ⟨seen, h, hs⟩
            refine ⟨.octal ?_, ?_⟩
            · cases seen with
              | false => exact tail_of_plain (by decide) h
              | true => exact (tail_of (hex := false) (by decide) (.inl (by decide)) h).1 (hs rfl)
            · have := bound_of h (Nat.zero_le _); omega
          · rintro ⟨h, hn⟩
            have ht : Tail 8 0 (x :: r) n := by
              cases h with
              | decimal hc h0 h => exact absurd rfl h0
              | octal h => exact h
              | lettered hx' hn h => exact absurd ⟨_, hx'⟩ hx
            have hr := ht.run (hex := false) (maxVal := 2 ^ bits - 1) (by decide) (.inl (by decide)) (by omega)
            obtain ⟨seen, h⟩ := hr.1 false
            exact ⟨seen, h, fun _ => hr.2⟩
    · have hsp : splitBase (c :: cs) = (10, c :: cs) := by
        unfold splitBase
        split
        · next h => injection h with h _; exact absurd h h0
        · next h => injection h with h _; exact absurd h h0
        · rfl
      rw [parseUint0_eq (by simp) hsp]
      have hdec : ∀ {c : Char}, IsHexDigit c → digit c < 10 → IsDecDigit c := by
        have : ∀ c ∈ "0123456789abcdefABCDEF".toList, digit c < 10 → IsDecDigit c := by decide
        exact fun {c} h => this c h
      have hlt : ∀ {c : Char}, IsDecDigit c → digit c < 10 ∧ c ≠ '-' ∧ c ≠ '+' := by
        have : ∀ c ∈ "0123456789".toList, digit c < 10 ∧ c ≠ '-' ∧ c ≠ '+' := by decide
        exact fun {c} h => this c h
      have hok : IsDecDigit c → underscoreOK (c :: cs) = underscoreLoop false cs '0' := by
        intro hc
        obtain ⟨h10, hm, hp⟩ := hlt hc
        rw [← underscoreLoop_digit (saw := '^') (dec_hex hc) (.inl h10)]
        have hc' : c = '1' ∨ c = '2' ∨ c = '3' ∨ c = '4' ∨ c = '5' ∨ c = '6' ∨ c = '7' ∨ c = '8' ∨ c = '9' := by
          have : ∀ c ∈ "0123456789".toList, ¬ c = '0' → c = '1' ∨ c = '2' ∨ c = '3' ∨ c = '4' ∨ c = '5' ∨ c = '6' ∨ c = '7' ∨
            c = '8' ∨ c = '9' := by decide
          exact this c hc h0
        rcases hc' with rfl | rfl | rfl | rfl | rfl | rfl | rfl | rfl | rfl <;> rfl
      constructor
      · rintro ⟨seen, h, hs⟩
        have hc : c ≠ '_' := by
          rintro rfl
          have h' : digitLoop 10 (2 ^ bits - 1) true cs 0 true = .ok (n, seen) := by simpa [digitLoop] using h
          have hu := hs (seen_stays h')
          simp [underscoreOK, underscoreLoop, digitVal_under] at hu
        have hbd := bound_of h (Nat.zero_le _)
        obtain ⟨hh, hb, hm, h'⟩ := digitLoop_cons_ok (by decide) (.inl hc) h
        have hd := hdec hh hb
        rw [Nat.zero_mul, Nat.zero_add] at h'
        refine ⟨.decimal hd h0 ?_, by omega⟩
        cases seen with
        | false => exact tail_of_plain (by decide) h'
        | true => exact (tail_of (hex := false) (by decide) (.inl (by decide)) h').1 (by rw [← hok hd]; exact hs rfl)
      · rintro ⟨h, hn⟩
        cases h with
        | decimal hc h0 h =>
          have hr := h.run (hex := false) (maxVal := 2 ^ bits - 1) (by decide) (.inl (by decide)) (by omega)
          obtain ⟨seen, h'⟩ := hr.1 false
          have := h.le (by decide)
          refine ⟨seen, ?_, fun _ => by rw [hok hc]; exact hr.2⟩
          rw [digitLoop_digit (dec_hex hc) (hlt hc).1 (by omega), Nat.zero_mul, Nat.zero_add]
          exact h'
        | octal h => exact absurd rfl h0
        | lettered hx hn h => exact absurd rfl h0

theorem literal_head {c : Char} {cs : List Char} {n : Nat} (h : Literal (c :: cs) n) : c ≠ '+' ∧ c ≠ '-' := by
  have : ∀ c ∈ "0123456789".toList, c ≠ '+' ∧ c ≠ '-' := by decide
  cases h with
  | decimal hc h0 h => exact this c hc
  | octal h => decide
  | lettered hx hn h => decide

/-- `strconv.ParseInt` with the base 0. -/
theorem parseInt0_iff (s : List Char) (bits : Nat) (v : Int) (hb : 0 < bits) :
    parseInt0 s bits = .ok v ↔ Signed s v ∧ InRange bits v := by
  have h2 : 2 ^ bits = 2 * 2 ^ (bits - 1) := by
    obtain ⟨b, rfl⟩ : ∃ b, bits = b + 1 := ⟨bits - 1, by omega⟩
    rw [Nat.add_sub_cancel, Nat.pow_succ, Nat.mul_comm]
  have hr : ∀ v, InRange bits v ↔ -((2 ^ (bits - 1) : Nat) : Int) ≤ v ∧ v < ((2 ^ (bits - 1) : Nat) : Int) := by
    intro v
    simp [InRange]
  have hpos : 0 < 2 ^ (bits - 1) := Nat.two_pow_pos _
  have key : ∀ (neg : Bool) (r : List Char),
      (match parseUint0 r bits with
        | .error e => (.error e : Except NumErr Int)
        | .ok un =>
          if !neg && un ≥ 2 ^ (bits - 1) then .error .range
          else if neg && un > 2 ^ (bits - 1) then .error .range
          else .ok (if neg then -(un : Int) else un)) = .ok v ↔
        ∃ n, Literal r n ∧ v = (if neg then -(n : Int) else n) ∧ InRange bits v := by
    intro neg r
    rw [hr]
    cases hp : parseUint0 r bits with
    | error e =>
      simp only [reduceCtorEq, false_iff]
      rintro ⟨n, hl, hv, hi⟩
      have : parseUint0 r bits = .ok n := (parseUint0_iff r bits n).2 ⟨hl, by cases neg <;> simp at hv <;> omega⟩
      rw [hp] at this
      cases this
    | ok un =>
      have hu := (parseUint0_iff r bits un).1 hp
      have huniq : ∀ n, Literal r n → n < 2 ^ bits → n = un := by
        intro n hl hn
        have := (parseUint0_iff r bits n).2 ⟨hl, hn⟩
        rw [hp] at this
        injection this with this
        exact this.symm
      cases neg with
      | false =>
        simp only [Bool.not_false, Bool.true_and, Bool.false_and, decide_eq_true_eq, Bool.false_eq_true, if_false, ge_iff_le]
        by_cases h : 2 ^ (bits - 1) ≤ un
        · rw [if_pos h]
          simp only [reduceCtorEq, false_iff]
          rintro ⟨n, hl, rfl, hi⟩
          have := huniq n hl (by omega)
          omega
        · rw [if_neg h]
          constructor
          · intro e
            injection e with e
            exact ⟨un, hu.1, e.symm, by omega⟩
          · rintro ⟨n, hl, rfl, hi⟩
            rw [huniq n hl (by omega)]
      | true =>
        simp only [Bool.not_true, Bool.true_and, Bool.false_and, decide_eq_true_eq, Bool.false_eq_true, if_false, if_true, gt_iff_lt]
        by_cases h : 2 ^ (bits - 1) < un
        · rw [if_pos h]
          simp only [reduceCtorEq, false_iff]
          rintro ⟨n, hl, rfl, hi⟩
          have := huniq n hl (by omega)
          omega
        · rw [if_neg h]
          constructor
          · intro e
            injection e with e
            exact ⟨un, hu.1, e.symm, by omega⟩
          · rintro ⟨n, hl, rfl, hi⟩
            rw [huniq n hl (by omega)]
  unfold parseInt0 parseIntWith
  split
  · constructor
    · intro h; cases h
    · rintro ⟨h, _⟩
      cases h with
      | bare h => cases h
  · next r =>
    refine (key false r).trans ?_
    constructor
    · rintro ⟨n, hl, rfl, hi⟩; exact ⟨.plus hl, hi⟩
    · rintro ⟨h, hi⟩
      cases h with
      | bare h => exact absurd rfl (literal_head h).1
      | plus h => exact ⟨_, h, rfl, hi⟩
  · next r =>
    refine (key true r).trans ?_
    constructor
    · rintro ⟨n, hl, rfl, hi⟩; exact ⟨.minus hl, hi⟩
    · rintro ⟨h, hi⟩
      cases h with
      | bare h => exact absurd rfl (literal_head h).2
      | minus h => exact ⟨_, h, rfl, hi⟩
  · next h1 h2 h3 =>
    refine (key false s).trans ?_
    constructor
    · rintro ⟨n, hl, rfl, hi⟩; exact ⟨.bare hl, hi⟩
    · rintro ⟨h, hi⟩
      cases h with
      | bare h => exact ⟨_, h, rfl, hi⟩
      | plus h => exact absurd rfl (h2 _)
      | minus h => exact absurd rfl (h3 _)

end Verif.GoInteger
