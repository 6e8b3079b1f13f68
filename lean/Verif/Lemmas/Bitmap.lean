import Verif.Model.Bitmap

set_option linter.unusedSimpArgs false

namespace Verif.Bitmap

open Verif.YamlChar

/-- The slot of a charset (8 for the unknown charset, outside of the bitmap). -/
def slot : CharSet → Nat
  | .decimal => 0 | .word => 1 | .uri => 2 | .tag => 3 | .anchor => 4 | .plainSafe => 5
  | .singleQuoted => 6 | .doubleQuoted => 7 | .unknown => 16

theorem tz_slot (c : CharSet) : trailingZeros16 c.code = slot c := by
  cases c <;> decide

theorem slot_inj {c d : CharSet} (h : slot c = slot d) : c = d := by
  cases c <;> cases d <;> simp_all [slot]

theorem slot_lt {c : CharSet} (h : c ≠ .unknown) : slot c < 8 := by
  cases c <;> simp_all [slot]

/-- The two bits of a slot as a number. -/
def twoBits (lo hi : Bool) : Bitmap :=
  match lo, hi with
  | false, false => 0
  | true, false => 1
  | false, true => 2
  | true, true => 3

theorem val_eq (b : Bitmap) (k : Nat) (hk : k < 8) :
    (b &&& ((3 : Bitmap) <<< (2 * k))) >>> (2 * k) =
      twoBits (b.getLsbD (2 * k)) (b.getLsbD (2 * k + 1)) := by
  apply BitVec.eq_of_getLsbD_eq
  intro i hi
  simp only [BitVec.getLsbD_ushiftRight, BitVec.getLsbD_and, BitVec.getLsbD_shiftLeft]
  rcases i with _ | _ | i
  · have h1 : 2 * k < 16 := by omega
    simp only [Nat.add_zero, h1, Nat.lt_irrefl, decide_true, decide_false, Bool.not_false, Bool.true_and,
      Nat.sub_self]
    cases b.getLsbD (2 * k) <;> cases b.getLsbD (2 * k + 1) <;> decide
  · have h1 : 2 * k + (0 + 1) < 16 := by omega
    have h2 : ¬ (2 * k + (0 + 1) < 2 * k) := by omega
    simp only [h1, h2, decide_true, decide_false, Bool.not_false, Bool.true_and,
      show 2 * k + (0 + 1) - 2 * k = 1 by omega, Nat.zero_add]
    cases b.getLsbD (2 * k) <;> cases b.getLsbD (2 * k + 1) <;> decide
  · have h3 : (3 : Bitmap).getLsbD (2 * k + (i + 1 + 1) - 2 * k) = false := by
      rw [show 2 * k + (i + 1 + 1) - 2 * k = i + 2 by omega]
      have : ∀ j : Fin 14, (3 : Bitmap).getLsbD (j.val + 2) = false := by decide
      exact this ⟨i, by omega⟩
    rw [h3]
    have : ∀ j : Fin 14, ∀ lo hi, (twoBits lo hi).getLsbD (j.val + 2) = false := by decide
    have := this ⟨i, by omega⟩ (b.getLsbD (2 * k)) (b.getLsbD (2 * k + 1))
    simp only [Bool.and_false]
    exact this.symm

/-- `get` in terms of the two bits. -/
theorem get_eq (b : Bitmap) {c : CharSet} (hc : c ≠ .unknown) :
    get b c = match b.getLsbD (2 * slot c), b.getLsbD (2 * slot c + 1) with
      | true, false => (true, true)
      | false, true => (false, true)
      | _, _ => (false, false) := by
  unfold get
  rw [tz_slot]
  simp only [val_eq b (slot c) (slot_lt hc)]
  cases b.getLsbD (2 * slot c) <;> cases b.getLsbD (2 * slot c + 1) <;> decide

theorem one_getLsbD (i : Nat) : (1 : Bitmap).getLsbD i = decide (i = 0) := by
  rcases i with _ | i
  · decide
  · by_cases h : i + 1 < 16
    · have : ∀ j : Fin 15, (1 : Bitmap).getLsbD (j.val + 1) = false := by decide
      simpa using this ⟨i, by omega⟩
    · rw [BitVec.getLsbD_of_ge _ _ (by omega)]; simp

theorem one_shift_getLsbD (s i : Nat) :
    ((1 : Bitmap) <<< s).getLsbD i = decide (i < 16 ∧ i = s) := by
  rw [BitVec.getLsbD_shiftLeft, one_getLsbD]
  by_cases h1 : i < 16 <;> by_cases h2 : i < s <;> simp [h1, h2] <;> omega

theorem setTrue_getLsbD (b : Bitmap) (c : CharSet) (i : Nat) (hi : i < 16) :
    (setTrue b c).getLsbD i =
      (if i = 2 * slot c then true else if i = 2 * slot c + 1 then false else b.getLsbD i) := by
  unfold setTrue
  rw [tz_slot]
  simp only [BitVec.getLsbD_or, BitVec.getLsbD_and, BitVec.getLsbD_not, one_shift_getLsbD]
  by_cases h1 : i = 2 * slot c
  · simp [h1, hi, h1 ▸ hi]
  · by_cases h2 : i = 1 + 2 * slot c
    · have : ¬ (1 + 2 * slot c = 2 * slot c) := by omega
      simp [h2, this, show 1 + 2 * slot c = 2 * slot c + 1 by omega]
    · have : ¬ (i = 2 * slot c + 1) := by omega
      simp [h1, h2, this, hi]

theorem setFalse_getLsbD (b : Bitmap) (c : CharSet) (i : Nat) (hi : i < 16) :
    (setFalse b c).getLsbD i =
      (if i = 2 * slot c then false else if i = 2 * slot c + 1 then true else b.getLsbD i) := by
  unfold setFalse
  rw [tz_slot]
  simp only [BitVec.getLsbD_or, BitVec.getLsbD_and, BitVec.getLsbD_not, one_shift_getLsbD,
    show 1 + 2 * slot c - 1 = 2 * slot c by omega]
  by_cases h1 : i = 2 * slot c
  · have : ¬ (2 * slot c = 1 + 2 * slot c) := by omega
    simp [h1, this]
  · by_cases h2 : i = 1 + 2 * slot c
    · have h3 : 2 * slot c + 1 < 16 := by omega
      simp [h2, show 1 + 2 * slot c = 2 * slot c + 1 by omega, h3]
    · have : ¬ (i = 2 * slot c + 1) := by omega
      simp [h1, h2, this, hi]

theorem get_set_same (b : Bitmap) {c : CharSet} (hc : c ≠ .unknown) (v : Bool) :
    get (set b c v) c = (v, true) := by
  have hl := slot_lt hc
  rw [get_eq _ hc]
  unfold set
  cases v
  · simp [setFalse_getLsbD b c _ (show 2 * slot c < 16 by omega),
      setFalse_getLsbD b c _ (show 2 * slot c + 1 < 16 by omega)]
  · simp [setTrue_getLsbD b c _ (show 2 * slot c < 16 by omega),
      setTrue_getLsbD b c _ (show 2 * slot c + 1 < 16 by omega)]

theorem get_set_other (b : Bitmap) {c d : CharSet} (hd : d ≠ .unknown) (hcd : c ≠ d) (v : Bool) :
    get (set b c v) d = get b d := by
  have hl := slot_lt hd
  have hne : slot c ≠ slot d := fun h => hcd (slot_inj h)
  rw [get_eq _ hd, get_eq _ hd]
  unfold set
  cases v
  · simp [setFalse_getLsbD b c _ (show 2 * slot d < 16 by omega),
      setFalse_getLsbD b c _ (show 2 * slot d + 1 < 16 by omega),
      show ¬ (2 * slot d = 2 * slot c) by omega, show ¬ (2 * slot d = 2 * slot c + 1) by omega,
      show ¬ (2 * slot d + 1 = 2 * slot c) by omega, show ¬ (slot d = slot c) by omega]
  · simp [setTrue_getLsbD b c _ (show 2 * slot d < 16 by omega),
      setTrue_getLsbD b c _ (show 2 * slot d + 1 < 16 by omega),
      show ¬ (2 * slot d = 2 * slot c) by omega, show ¬ (2 * slot d = 2 * slot c + 1) by omega,
      show ¬ (2 * slot d + 1 = 2 * slot c) by omega, show ¬ (slot d = slot c) by omega]

theorem get_unknown (b : Bitmap) : get b .unknown = (false, false) := by
  unfold get
  have h : trailingZeros16 CharSet.unknown.code = 16 := by decide
  rw [h]
  have : ((3 : Bitmap) <<< (2 * 16)) = 0 := by decide
  simp [this]

/-- Every recorded answer is the right one. -/
def MemoOk (t : MemoToken) : Prop :=
  ∀ c, get t.map c = (false, false) ∨ get t.map c = (conformsCharSet t.origin c, true)

theorem get_zero (c : CharSet) : get 0 c = (false, false) := by
  cases c <;> decide

theorem conforms_ok {t : MemoToken} (h : MemoOk t) (c : CharSet) :
    (conforms t c).1 = conformsCharSet t.origin c ∧ MemoOk (conforms t c).2 ∧
      (conforms t c).2.origin = t.origin := by
  unfold conforms
  rcases h c with hc | hc
  · rw [hc]
    refine ⟨rfl, ?_, rfl⟩
    intro d
    by_cases hd : d = .unknown
    · subst hd; left; exact get_unknown _
    · by_cases hcd : c = d
      · subst hcd; right; exact get_set_same _ hd _
      · simp only [get_set_other _ hd hcd]
        exact h d
  · rw [hc]
    exact ⟨rfl, h, rfl⟩

theorem queries_ok (cs : List CharSet) : ∀ {t : MemoToken}, MemoOk t →
    queries t cs = cs.map (conformsCharSet t.origin) := by
  induction cs with
  | nil => intro t _; rfl
  | cons c cs ih =>
    intro t h
    obtain ⟨h1, h2, h3⟩ := conforms_ok h c
    simp only [queries, List.map_cons, h1, ih h2, h3]

end Verif.Bitmap
