import Verif.Spec.Ieee
import Mathlib.Tactic.Linarith
import Mathlib.Tactic.Ring
import Mathlib.Tactic.NormNum
import Mathlib.Tactic.Positivity
import Mathlib.Tactic.FieldSimp
import Mathlib.Algebra.Order.Field.Power

/-!
Rounding to single precision what has been rounded to double precision.
-/

namespace Verif.Ieee

theorem single_double {x : ℚ} (h : Single x) : Double x := by
  obtain ⟨m, e, hm, hl, hh, rfl⟩ := h
  exact ⟨m, e, le_trans hm (by norm_num), by omega, by omega, rfl⟩

theorem two_pos (e : Int) : (0 : ℚ) < 2 ^ e := by positivity

theorem zpow_split (e k : Int) : (2 : ℚ) ^ e = 2 ^ (e - k) * 2 ^ k := by
  rw [← zpow_add₀ (by norm_num)]
  congr 1
  omega

/-- A magnitude with the greatest number of bits: unless the exponent is the least one, the number has 24 bits. -/
theorem single_normal {x : ℚ} (h : Single x) :
    ∃ (m : Nat) (e : Int), m ≤ 2 ^ 24 ∧ -149 ≤ e ∧ e ≤ 104 ∧ x = m * (2 : ℚ) ^ e ∧ (e = -149 ∨ 2 ^ 23 ≤ m) := by
  obtain ⟨m, e, hm, hl, hh, rfl⟩ := h
  have key : ∀ (n : Nat) (m : Nat) (e : Int), (e + 149).toNat = n → m ≤ 2 ^ 24 → -149 ≤ e → e ≤ 104 →
      ∃ (m' : Nat) (e' : Int), m' ≤ 2 ^ 24 ∧ -149 ≤ e' ∧ e' ≤ 104 ∧ (m : ℚ) * 2 ^ e = m' * (2 : ℚ) ^ e' ∧
        (e' = -149 ∨ 2 ^ 23 ≤ m') := by
    intro n
    induction n with
    | zero => intro m e he hm hl hh; exact ⟨m, e, hm, hl, hh, rfl, .inl (by omega)⟩
    | succ n ih =>
      intro m e he hm hl hh
      by_cases h23 : 2 ^ 23 ≤ m
      · exact ⟨m, e, hm, hl, hh, rfl, .inr h23⟩
      · obtain ⟨m', e', h1, h2, h3, h4, h5⟩ := ih (2 * m) (e - 1) (by omega) (by omega) (by omega) (by omega)
        refine ⟨m', e', h1, h2, h3, ?_, h5⟩
        rw [← h4, zpow_split e 1]
        push_cast
        ring
  exact key _ m e rfl hm hl hh

/-- Singles keep their distance. -/
theorem single_apart {m : Nat} {e : Int} (hm : m ≤ 2 ^ 24) (hl : -149 ≤ e) (hn : e = -149 ∨ 2 ^ 23 ≤ m) {y : ℚ} (hy : Single y)
    (hne : y ≠ m * (2 : ℚ) ^ e) : (2 : ℚ) ^ (e - 1) ≤ |y - m * (2 : ℚ) ^ e| := by
  obtain ⟨k, f, hk, hfl, hfh, rfl⟩ := hy
  have hint : ∀ z : Int, z ≠ 0 → (1 : ℚ) ≤ |(z : ℚ)| := by
    intro z hz
    have : (1 : Int) ≤ |z| := Int.one_le_abs hz
    exact_mod_cast this
  -- a difference which is a multiple of a power
  have mult : ∀ (g : Int) (z : Int), (k : ℚ) * 2 ^ f - m * 2 ^ e = z * (2 : ℚ) ^ g → e - 1 ≤ g →
      (2 : ℚ) ^ (e - 1) ≤ |(k : ℚ) * 2 ^ f - m * 2 ^ e| := by
    intro g z hz hg
    have hz0 : z ≠ 0 := by
      rintro rfl
      apply hne
      have : (k : ℚ) * 2 ^ f - m * 2 ^ e = 0 := by rw [hz]; simp
      linarith
    rw [hz, abs_mul, abs_of_pos (two_pos g)]
    calc (2 : ℚ) ^ (e - 1) ≤ 2 ^ g := zpow_le_zpow_right₀ (by norm_num) hg
      _ = 1 * 2 ^ g := by ring
      _ ≤ _ := by gcongr; exact hint z hz0
  by_cases h1 : e - 1 ≤ f
  · by_cases h2 : e ≤ f
    · obtain ⟨n, hn'⟩ : ∃ n : Nat, f = e + n := ⟨(f - e).toNat, by omega⟩
      refine mult e ((k : Int) * 2 ^ n - m) ?_ (by omega)
      rw [hn', zpow_add₀ (by norm_num), zpow_natCast]
      push_cast
      ring
    · have hf : f = e - 1 := by omega
      refine mult (e - 1) ((k : Int) - 2 * m) ?_ (by omega)
      rw [hf, zpow_split e 1, ]
      push_cast
      ring
  · have hm23 : 2 ^ 23 ≤ m := by
      rcases hn with h | h
      · omega
      · exact h
    have a1 : (k : ℚ) * 2 ^ f ≤ 2 ^ 24 * 2 ^ (e - 2) := by
      have : (k : ℚ) ≤ 2 ^ 24 := by exact_mod_cast hk
      have h3 : (2 : ℚ) ^ f ≤ 2 ^ (e - 2) := zpow_le_zpow_right₀ (by norm_num) (by omega)
      have := two_pos f
      gcongr
    have a2 : (2 : ℚ) ^ 23 * 2 ^ e ≤ m * 2 ^ e := by
      have : ((2 : ℚ) ^ 23) ≤ m := by exact_mod_cast hm23
      have := two_pos e
      gcongr
    have e1 : (2 : ℚ) ^ e = 4 * 2 ^ (e - 2) := by rw [zpow_split e 2]; norm_num; ring
    have e2 : (2 : ℚ) ^ (e - 1) = 2 * 2 ^ (e - 2) := by
      rw [zpow_split (e - 1) 1, show e - 1 - 1 = e - 2 by omega]; norm_num; ring
    have hp := two_pos (e - 2)
    rw [abs_sub_comm]
    refine le_trans ?_ (le_abs_self _)
    rw [e2]
    rw [e1] at a2
    rw [e1]
    nlinarith

/-- A double beside a single. -/
theorem double_beside {m : Nat} {e : Int} (hm : m ≤ 2 ^ 24) (hl : -149 ≤ e) (hh : e ≤ 104) :
    Double (m * (2 : ℚ) ^ e + 2 ^ (e - 2)) ∧ (0 < m → Double (m * (2 : ℚ) ^ e - 2 ^ (e - 2))) := by
  have e1 : (2 : ℚ) ^ e = 4 * 2 ^ (e - 2) := by rw [zpow_split e 2]; norm_num; ring
  constructor
  · refine ⟨4 * m + 1, e - 2, by norm_num at hm ⊢; omega, by omega, by omega, ?_⟩
    rw [e1]
    push_cast
    ring
  · intro h0
    refine ⟨4 * m - 1, e - 2, by norm_num at hm ⊢; omega, by omega, by omega, ?_⟩
    rw [e1, Nat.cast_sub (by omega)]
    push_cast
    ring

/-- If a single is a double nearest to a number, it is the only single nearest to it. -/
theorem nearest_double_single {q d : ℚ} (hd : Single d) (h : Nearest Double q d) : OnlyNearest Single q d := by
  refine ⟨hd, fun y hy hne => lt_of_le_of_ne (h.2 y (single_double hy)) ?_⟩
  intro heq
  obtain ⟨m, e, hm, hl, hh, hdm, hn⟩ := single_normal hd
  have hap := single_apart hm hl hn hy (by rw [← hdm]; exact hne)
  rw [← hdm] at hap
  obtain ⟨b1, b2⟩ := double_beside hm hl hh
  rw [← hdm] at b1 b2
  have hp := two_pos (e - 2)
  have e2 : (2 : ℚ) ^ (e - 1) = 2 * 2 ^ (e - 2) := by
    rw [zpow_split (e - 1) 1, show e - 1 - 1 = e - 2 by omega]; norm_num; ring
  rw [e2] at hap
  have hy0 : 0 ≤ y := by
    obtain ⟨k, f, _, _, _, rfl⟩ := hy
    have := two_pos f
    positivity
  -- `q` is in the middle
  have hmid : q - d = -(q - y) := by
    rcases abs_eq_abs.1 heq with h | h
    · exact absurd (by linarith) hne
    · exact h
  rcases lt_or_gt_of_ne hne with hlt | hgt
  · have hm0 : 0 < m := by
      rcases Nat.eq_zero_or_pos m with h0 | h0
      · rw [h0] at hdm; simp at hdm; linarith
      · exact h0
    have := h.2 _ (b2 hm0)
    rw [abs_of_neg (by linarith : y - d < 0)] at hap
    rw [abs_of_neg (by linarith : q - d < 0)] at this
    have hc : |q - (d - 2 ^ (e - 2))| < -(q - d) := by
      rw [abs_lt]
      constructor <;> linarith
    linarith
  · have := h.2 _ b1
    rw [abs_of_pos (by linarith : 0 < y - d)] at hap
    rw [abs_of_pos (by linarith : 0 < q - d)] at this
    have hc : |q - (d + 2 ^ (e - 2))| < q - d := by
      rw [abs_lt]
      constructor <;> linarith
    linarith

end Verif.Ieee
