import Verif.Model.Schema

set_option linter.unusedSimpArgs false

namespace Verif.Strconv

theorem digitChar_val {d : Nat} (h : d < 10) : digitVal (digitChar d) = some d := by
  have : ∀ d : Fin 10, digitVal (digitChar d.val) = some d.val := by decide
  exact this ⟨d, h⟩

theorem digitChar_props {d : Nat} (h : d < 10) :
    digitChar d ≠ '_' ∧ digitChar d ≠ '+' ∧ digitChar d ≠ '-' ∧ Schema.isDec (digitChar d) = true ∧
      (d ≠ 0 → digitChar d ≠ '0') := by
  have : ∀ d : Fin 10, digitChar d.val ≠ '_' ∧ digitChar d.val ≠ '+' ∧ digitChar d.val ≠ '-' ∧
      Schema.isDec (digitChar d.val) = true ∧ (d.val ≠ 0 → digitChar d.val ≠ '0') := by decide
  exact this ⟨d, h⟩

theorem digitLoop_append (base maxVal : Nat) (us : Bool) (s t : List Char) : ∀ n seen,
    digitLoop base maxVal us (s ++ t) n seen =
      match digitLoop base maxVal us s n seen with
      | .error e => .error e
      | .ok (m, sn) => digitLoop base maxVal us t m sn := by
  induction s with
  | nil => intro n seen; rfl
  | cons c s ih =>
    intro n seen
    simp only [List.cons_append, digitLoop]
    split
    · exact ih _ _
    · split
      · rfl
      · split
        · rfl
        · split
          · rfl
          · exact ih _ _

/-- Reading back decimal digits. -/
theorem digitLoop_format (maxVal : Nat) (us : Bool) (n : Nat) : ∀ a seen,
    digitLoop 10 maxVal us (formatUint n) a seen =
      if a * 10 ^ (formatUint n).length + n ≤ maxVal then
        .ok (a * 10 ^ (formatUint n).length + n, seen)
      else .error .range := by
  induction n using Nat.strongRecOn with
  | _ n ih =>
    intro a seen
    rw [formatUint]
    split
    · rename_i hn
      obtain ⟨hu, -⟩ := digitChar_props hn
      simp only [digitLoop, hu, false_and, if_false, digitChar_val hn, List.length_singleton, Nat.pow_one]
      rw [if_neg (by omega)]
      by_cases h : a * 10 + n ≤ maxVal
      · rw [if_neg (by omega), if_pos h]
      · rw [if_pos (by omega), if_neg h]
    · rename_i hn
      have hd : n % 10 < 10 := Nat.mod_lt _ (by omega)
      obtain ⟨hu, -⟩ := digitChar_props hd
      rw [digitLoop_append, ih (n / 10) (by omega)]
      have hlen : (formatUint (n / 10) ++ [digitChar (n % 10)]).length = (formatUint (n / 10)).length + 1 := by
        simp
      rw [hlen, Nat.pow_succ]
      generalize (formatUint (n / 10)).length = k
      have hmul : a * (10 ^ k * 10) = 10 * (a * 10 ^ k) := by
        rw [← Nat.mul_assoc, Nat.mul_comm]
      rw [hmul]
      generalize a * 10 ^ k = m
      by_cases h : m + n / 10 ≤ maxVal
      · rw [if_pos h]
        simp only [digitLoop, hu, false_and, if_false, digitChar_val hd]
        rw [if_neg (by omega)]
        by_cases h2 : 10 * m + n ≤ maxVal
        · rw [if_pos h2, if_neg (by omega)]
          congr 2
          omega
        · rw [if_neg h2, if_pos (by omega)]
      · rw [if_neg h, if_neg (by omega)]

theorem formatUint_ne_nil (n : Nat) : formatUint n ≠ [] := by
  rw [formatUint]; split <;> simp

theorem formatUint_all_dec (n : Nat) : (formatUint n).all Schema.isDec = true := by
  induction n using Nat.strongRecOn with
  | _ n ih =>
    rw [formatUint]
    split
    · rename_i hn; simp [(digitChar_props hn).2.2.2.1]
    · simp only [List.all_append, ih (n / 10) (by omega), Bool.true_and, List.all_cons, List.all_nil,
        Bool.and_true]
      exact (digitChar_props (Nat.mod_lt _ (by omega))).2.2.2.1

theorem formatUint_head (n : Nat) (hn : n ≠ 0) : ∃ c r, formatUint n = c :: r ∧ c ≠ '0' := by
  induction n using Nat.strongRecOn with
  | _ n ih =>
    rw [formatUint]
    split
    · rename_i h; exact ⟨_, _, rfl, (digitChar_props h).2.2.2.2 hn⟩
    · rename_i h
      obtain ⟨c, r, hc, h0⟩ := ih (n / 10) (by omega) (by omega)
      exact ⟨c, r ++ [digitChar (n % 10)], by rw [hc]; rfl, h0⟩

theorem splitBase_of_ne {c : Char} (h : c ≠ '0') (r : List Char) : splitBase (c :: r) = (10, c :: r) := by
  unfold splitBase
  split
  · rename_i heq; simp at heq; exact absurd heq.1 h
  · rename_i heq; simp at heq; exact absurd heq.1 h
  · rfl

theorem parseUint0_format (n bits : Nat) :
    parseUint0 (formatUint n) bits = if n < 2 ^ bits then .ok n else .error .range := by
  have hpos : 0 < 2 ^ bits := Nat.pos_of_ne_zero (by simp)
  unfold parseUint0
  rw [if_neg (formatUint_ne_nil n)]
  by_cases hn : n = 0
  · subst hn
    have h0 : formatUint 0 = ['0'] := by rw [formatUint]; simp [digitChar]
    rw [h0]
    simp [splitBase, digitLoop, hpos]
  · obtain ⟨c, r, hc, h0⟩ := formatUint_head n hn
    have hs : splitBase (formatUint n) = (10, formatUint n) := by
      rw [hc]; exact splitBase_of_ne h0 r
    rw [hs]
    simp only
    rw [digitLoop_format]
    simp only [Nat.zero_mul, Nat.zero_add]
    by_cases h : n < 2 ^ bits
    · rw [if_pos (show n ≤ 2 ^ bits - 1 by omega), if_pos h]; rfl
    · rw [if_neg (show ¬ n ≤ 2 ^ bits - 1 by omega), if_neg h]

theorem formatUint_no_sign (n : Nat) : ∀ c r, formatUint n = c :: r → c ≠ '+' ∧ c ≠ '-' := by
  intro c r h
  have := formatUint_all_dec n
  rw [h] at this
  simp at this
  have hc := this.1
  constructor <;> rintro rfl <;> revert hc <;> decide

theorem parseIntWith_nosign {pu : List Char → Nat → Except NumErr Nat} {s : List Char} {bits : Nat}
    (hne : s ≠ []) (h : ∀ c r, s = c :: r → c ≠ '+' ∧ c ≠ '-') :
    parseIntWith pu s bits =
      match pu s bits with
      | .error e => .error e
      | .ok un => if un ≥ 2 ^ (bits - 1) then .error .range else .ok (un : Int) := by
  unfold parseIntWith
  cases s with
  | nil => exact absurd rfl hne
  | cons c r =>
    obtain ⟨h1, h2⟩ := h c r rfl
    split
    · rename_i heq; simp at heq
    · rename_i heq; simp at heq; exact absurd heq.1 h1
    · rename_i heq; simp at heq; exact absurd heq.1 h2
    · cases hpu : pu (c :: r) bits <;> simp [hpu]

theorem two_pow_split {bits : Nat} (hb : 0 < bits) : 2 ^ bits = 2 * 2 ^ (bits - 1) := by
  conv => lhs; rw [show bits = (bits - 1) + 1 by omega, Nat.pow_succ]
  omega

theorem parseInt0_format (v : Int) (bits : Nat) (hb : 0 < bits) :
    parseInt0 (formatInt v) bits =
      if -(2 ^ (bits - 1) : Int) ≤ v ∧ v < 2 ^ (bits - 1) then .ok v else .error .range := by
  have h2 := two_pow_split hb
  have hpos : 0 < 2 ^ (bits - 1) := Nat.pos_of_ne_zero (by simp)
  have hcast : ((2 ^ (bits - 1) : Nat) : Int) = 2 ^ (bits - 1) := by simp
  rw [← hcast]
  generalize hM : 2 ^ (bits - 1) = M at *
  unfold parseInt0
  cases v with
  | ofNat n =>
    simp only [formatInt]
    rw [parseIntWith_nosign (formatUint_ne_nil n) (formatUint_no_sign n), parseUint0_format, h2, hM]
    by_cases h : n < 2 * M
    · rw [if_pos h]
      simp only
      by_cases h3 : n ≥ M
      · rw [if_pos h3, if_neg (by rintro ⟨-, h'⟩; simp at h'; omega)]
      · rw [if_neg h3, if_pos (by simp; omega)]; rfl
    · rw [if_neg h]
      simp only
      rw [if_neg (by rintro ⟨-, h'⟩; simp at h'; omega)]
  | negSucc n =>
    simp only [formatInt, parseIntWith]
    rw [parseUint0_format, h2, hM]
    by_cases h : n + 1 < 2 * M
    · rw [if_pos h]
      simp only [Bool.not_true, Bool.false_and, Bool.false_eq_true, if_false, Bool.true_and,
        decide_eq_true_eq, if_true]
      by_cases h3 : n + 1 > M
      · rw [if_pos h3, if_neg (by rintro ⟨h', -⟩; omega)]
      · rw [if_neg h3, if_pos (by omega)]
        congr 1
    · rw [if_neg h]
      simp only
      rw [if_neg (by rintro ⟨h', -⟩; omega)]

end Verif.Strconv

namespace Verif.Schema

open Verif.Strconv

/-- Value of a digit string in a base: the number it denotes. -/
def natOf (base : Nat) (ds : List Char) : Nat :=
  ds.foldl (fun n c => n * base + (digitVal c).getD 0) 0

def natFrom (base a : Nat) (ds : List Char) : Nat :=
  ds.foldl (fun n c => n * base + (digitVal c).getD 0) a

theorem natFrom_ge (base : Nat) (hb : 0 < base) (ds : List Char) : ∀ a, a ≤ natFrom base a ds := by
  induction ds with
  | nil => intro a; exact Nat.le_refl _
  | cons c ds ih =>
    intro a
    have : a ≤ a * base + (digitVal c).getD 0 := by
      have := Nat.le_mul_of_pos_right a hb
      omega
    exact Nat.le_trans this (ih _)

theorem digitLoop_natFrom (base maxVal : Nat) (us : Bool) (hb : 0 < base) (ds : List Char)
    (hd : ∀ c ∈ ds, c ≠ '_' ∧ ∃ d, digitVal c = some d ∧ d < base) : ∀ a seen, a ≤ maxVal →
    digitLoop base maxVal us ds a seen =
      if natFrom base a ds ≤ maxVal then .ok (natFrom base a ds, seen) else .error .range := by
  induction ds with
  | nil => intro a seen ha; simp [digitLoop, natFrom, ha]
  | cons c ds ih =>
    intro a seen ha
    obtain ⟨hu, d, hv, hlt⟩ := hd c (by simp)
    have ih' := ih (fun c' hc' => hd c' (by simp [hc']))
    simp only [digitLoop, hu, false_and, if_false, hv]
    rw [if_neg (by omega)]
    have hnf : natFrom base a (c :: ds) = natFrom base (a * base + d) ds := by
      simp [natFrom, hv]
    rw [hnf]
    by_cases h : a * base + d > maxVal
    · rw [if_pos h, if_neg]
      have := natFrom_ge base hb ds (a * base + d)
      omega
    · rw [if_neg h, ih' _ _ (by omega)]

theorem isDec_digit {c : Char} (h : isDec c = true) : c ≠ '_' ∧ ∃ d, digitVal c = some d ∧ d < 10 := by
  simp only [isDec, Bool.and_eq_true, decide_eq_true_eq] at h
  refine ⟨?_, c.toNat - 48, ?_, ?_⟩
  · rintro rfl; revert h; decide
  · have h' : '0'.toNat ≤ c.toNat ∧ c.toNat ≤ '9'.toNat := h
    simp only [digitVal, h', and_self, if_true]; rfl
  · have : '9'.toNat = 57 := rfl
    omega

theorem isOct_digit {c : Char} (h : isOct c = true) : c ≠ '_' ∧ ∃ d, digitVal c = some d ∧ d < 8 := by
  simp only [isOct, Bool.and_eq_true, decide_eq_true_eq] at h
  have h7 : '7'.toNat = 55 := rfl
  have h9 : '9'.toNat = 57 := rfl
  refine ⟨?_, c.toNat - 48, ?_, ?_⟩
  · rintro rfl; revert h; decide
  · have h' : '0'.toNat ≤ c.toNat ∧ c.toNat ≤ '9'.toNat := ⟨h.1, by omega⟩
    simp only [digitVal, h', and_self, if_true]; rfl
  · omega

theorem isHex_digit {c : Char} (h : isHex c = true) : c ≠ '_' ∧ ∃ d, digitVal c = some d ∧ d < 16 := by
  have h9 : '9'.toNat = 57 := rfl
  have h0 : '0'.toNat = 48 := rfl
  have ha : 'a'.toNat = 97 := rfl
  have hf : 'f'.toNat = 102 := rfl
  have hz : 'z'.toNat = 122 := rfl
  have hA : 'A'.toNat = 65 := rfl
  have hF : 'F'.toNat = 70 := rfl
  have hZ : 'Z'.toNat = 90 := rfl
  refine ⟨by rintro rfl; revert h; decide, ?_⟩
  simp only [isHex, isDec, Bool.or_eq_true, Bool.and_eq_true, decide_eq_true_eq] at h
  unfold digitVal
  by_cases c1 : '0'.toNat ≤ c.toNat ∧ c.toNat ≤ '9'.toNat
  · exact ⟨_, by rw [if_pos c1], by omega⟩
  · by_cases c2 : 'a'.toNat ≤ c.toNat ∧ c.toNat ≤ 'z'.toNat
    · refine ⟨_, by rw [if_neg c1, if_pos c2], by omega⟩
    · have c3 : 'A'.toNat ≤ c.toNat ∧ c.toNat ≤ 'Z'.toNat := by omega
      refine ⟨_, by rw [if_neg c1, if_neg c2, if_pos c3], by omega⟩

theorem digitLoop_natOf (base maxVal : Nat) (us : Bool) (hb : 0 < base) (ds : List Char)
    (hd : ∀ c ∈ ds, c ≠ '_' ∧ ∃ d, digitVal c = some d ∧ d < base) :
    digitLoop base maxVal us ds 0 false =
      if natOf base ds ≤ maxVal then .ok (natOf base ds, false) else .error .range :=
  digitLoop_natFrom base maxVal us hb ds hd 0 false (Nat.zero_le _)

/-- Result of the unsigned conversion when it is in range. -/
def ranged (n bits : Nat) : Except NumErr Nat := if n < 2 ^ bits then .ok n else .error .range

theorem plusOf_split {p : Char → Bool} {s : List Char} (h : plusOf p s = true) :
    s ≠ [] ∧ ∀ c ∈ s, p c = true := by
  simp [plusOf] at h
  exact ⟨h.1, h.2⟩

theorem parseUint0_decimal {s : List Char} (bits : Nat) (h : plusOf isDec s = true)
    (hz : s = ['0'] ∨ s.head? ≠ some '0') : parseUint0 s bits = ranged (natOf 10 s) bits := by
  obtain ⟨hne, hall⟩ := plusOf_split h
  have hpos : 0 < 2 ^ bits := Nat.pos_of_ne_zero (by simp)
  unfold parseUint0 ranged
  rw [if_neg hne]
  rcases hz with rfl | hz
  · simp [splitBase, digitLoop, natOf, digitVal, hpos]
  · cases s with
    | nil => exact absurd rfl hne
    | cons c r =>
      have hc : c ≠ '0' := by simpa using hz
      rw [splitBase_of_ne hc]
      simp only
      rw [digitLoop_natOf 10 _ true (by omega) _ (fun c' hc' => isDec_digit (hall c' hc'))]
      by_cases hlt : natOf 10 (c :: r) < 2 ^ bits
      · rw [if_pos (show natOf 10 (c :: r) ≤ 2 ^ bits - 1 by omega), if_pos hlt]; rfl
      · rw [if_neg (show ¬ natOf 10 (c :: r) ≤ 2 ^ bits - 1 by omega), if_neg hlt]

theorem parseUint0_octal {r : List Char} (bits : Nat) (h : plusOf isOct r = true) :
    parseUint0 ('0' :: 'o' :: r) bits = ranged (natOf 8 r) bits := by
  obtain ⟨hne, hall⟩ := plusOf_split h
  have hpos : 0 < 2 ^ bits := Nat.pos_of_ne_zero (by simp)
  unfold parseUint0 ranged
  rw [if_neg (by simp)]
  cases r with
  | nil => exact absurd rfl hne
  | cons c r =>
    have : splitBase ('0' :: 'o' :: c :: r) = (8, c :: r) := by simp [splitBase]
    rw [this]
    simp only
    rw [digitLoop_natOf 8 _ true (by omega) _ (fun c' hc' => isOct_digit (hall c' hc'))]
    by_cases hlt : natOf 8 (c :: r) < 2 ^ bits
    · rw [if_pos (show natOf 8 (c :: r) ≤ 2 ^ bits - 1 by omega), if_pos hlt]; rfl
    · rw [if_neg (show ¬ natOf 8 (c :: r) ≤ 2 ^ bits - 1 by omega), if_neg hlt]

theorem parseUint0_hex {r : List Char} (bits : Nat) (h : plusOf isHex r = true) :
    parseUint0 ('0' :: 'x' :: r) bits = ranged (natOf 16 r) bits := by
  obtain ⟨hne, hall⟩ := plusOf_split h
  have hpos : 0 < 2 ^ bits := Nat.pos_of_ne_zero (by simp)
  unfold parseUint0 ranged
  rw [if_neg (by simp)]
  cases r with
  | nil => exact absurd rfl hne
  | cons c r =>
    have : splitBase ('0' :: 'x' :: c :: r) = (16, c :: r) := by simp [splitBase]
    rw [this]
    simp only
    rw [digitLoop_natOf 16 _ true (by omega) _ (fun c' hc' => isHex_digit (hall c' hc'))]
    by_cases hlt : natOf 16 (c :: r) < 2 ^ bits
    · rw [if_pos (show natOf 16 (c :: r) ≤ 2 ^ bits - 1 by omega), if_pos hlt]; rfl
    · rw [if_neg (show ¬ natOf 16 (c :: r) ≤ 2 ^ bits - 1 by omega), if_neg hlt]

end Verif.Schema
