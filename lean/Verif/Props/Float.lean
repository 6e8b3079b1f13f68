import Verif.Spec.FloatValue
import Verif.Model.Float
import Verif.Props.Scalars
import Verif.Props.GenericTime

/-!
C76: floats as texts, engines/pkg/schema/schema.go:114-141.
-/

set_option linter.unusedSimpArgs false
set_option linter.unusedVariables false

namespace Verif.Props.Float

open Verif.Float Verif.FloatValue Verif.CoreSchema

/-! ### Reading -/

theorem digitVal_eq {c : Char} (h : IsDecDigit c) : digitVal c = CoreSchema.digit c := by
  have h2 := (Schema.isDec_iff c).2 h
  simp only [Schema.isDec, Bool.and_eq_true, decide_eq_true_eq] at h2
  have h9 : '9'.toNat = 57 := rfl
  have h0 : '0'.toNat = 48 := rfl
  unfold digitVal CoreSchema.digit
  rw [if_pos (by omega), h0]

theorem number_append (ds es : List Char) :
    number 10 (ds ++ es) = es.foldl (fun n c => n * 10 + CoreSchema.digit c) (number 10 ds) := by
  simp [number, List.foldl_append]

/-- Digits move the state: the number grows, and each of them takes one from the difference of `dp` and `nd`. -/
theorem mantLoop_digits {ds r : List Char} (hd : Digits ds) : ∀ st : Mant, (st.nd = 0 → st.m = 0) →
    ∃ st' : Mant, mantLoop st (ds ++ r) = mantLoop st' r ∧
      st'.m = ds.foldl (fun n c => n * 10 + CoreSchema.digit c) st.m ∧ st'.dp - st'.nd = st.dp - st.nd - ds.length ∧
      st'.sawDot = st.sawDot ∧ st'.sawDigits = (st.sawDigits || !ds.isEmpty) ∧ (st'.nd = 0 → st'.m = 0) := by
  induction ds with
  | nil => intro st hst; exact ⟨st, rfl, rfl, by simp, rfl, by simp, hst⟩
  | cons c ds ih =>
    intro st hst
    have hc : IsDecDigit c := hd c (by simp)
    have hne := Scalars.digit_not hc
    have hdec := (Schema.isDec_iff c).2 hc
    have ih := ih fun d hd' => hd d (by simp [hd'])
    simp only [List.cons_append, mantLoop, hne.2.2.1, if_false, hdec, if_true]
    by_cases hz : c = '0' ∧ st.nd = 0
    · rw [if_pos hz]
      obtain ⟨st', h1, h2, h3, h4, h5, h6⟩ := ih { st with sawDigits := true, dp := st.dp - 1 } hst
      refine ⟨st', h1, ?_, ?_, h4, by simp [h5], h6⟩
      · rw [h2, List.foldl_cons, hz.1]
        have : CoreSchema.digit '0' = 0 := by decide
        simp [hst hz.2, this]
      · rw [h3]
        simp only [List.length_cons]
        push_cast
        omega
    · rw [if_neg hz]
      obtain ⟨st', h1, h2, h3, h4, h5, h6⟩ :=
        ih { st with sawDigits := true, nd := st.nd + 1, m := st.m * 10 + digitVal c } (by simp)
      refine ⟨st', h1, ?_, ?_, h4, by simp [h5], h6⟩
      · rw [h2, List.foldl_cons, digitVal_eq hc]
      · rw [h3]
        simp only [List.length_cons]
        push_cast
        omega

theorem mantLoop_stop {r : List Char} (hr : ∀ c r', r = c :: r' → c ≠ '.' ∧ ¬ IsDecDigit c) (st : Mant) :
    mantLoop st r = (st, r) := by
  cases r with
  | nil => rfl
  | cons c r =>
    obtain ⟨h1, h2⟩ := hr c r rfl
    have h3 : Schema.isDec c = false := by
      rw [Bool.eq_false_iff]; exact fun h => h2 ((Schema.isDec_iff c).1 h)
    simp [mantLoop, h1, h3]

theorem mantLoop_dot {r : List Char} (st : Mant) (h : st.sawDot = false) :
    mantLoop st ('.' :: r) = mantLoop { st with sawDot := true, dp := st.nd } r := by
  simp [mantLoop, h]

/-- What the digit loop makes of a mantissa. -/
theorem mantLoop_mantissa {mant r : List Char} {m k : Nat} (hm : MantissaOf mant m k)
    (hr : ∀ c r', r = c :: r' → c ≠ '.' ∧ ¬ IsDecDigit c) :
    ∃ st : Mant, mantLoop ⟨0, 0, 0, false, false⟩ (mant ++ r) = (st, r) ∧ st.m = m ∧ st.sawDigits = true ∧
      (if st.sawDot then st.dp else (st.nd : Int)) - st.nd = -k := by
  cases hm with
  | fraction ds h hd =>
    rw [List.cons_append, mantLoop_dot _ rfl]
    obtain ⟨st, h1, h2, h3, h4, h5, _⟩ := mantLoop_digits (r := r) hd ⟨0, 0, 0, true, false⟩ (by simp)
    refine ⟨st, by simpa using h1.trans (mantLoop_stop hr st), h2, by rw [h5]; simp [h], ?_⟩
    rw [h4]
    simpa using h3
  | whole _ h hd =>
    obtain ⟨st, h1, h2, h3, h4, h5, _⟩ := mantLoop_digits (r := r) hd ⟨0, 0, 0, false, false⟩ (by simp)
    refine ⟨st, h1.trans (mantLoop_stop hr st), h2, by rw [h5]; simp [h], ?_⟩
    rw [h4]
    simp
  | both ds es h hd he =>
    obtain ⟨st, h1, h2, h3, h4, h5, h6⟩ := mantLoop_digits (r := '.' :: es ++ r) hd ⟨0, 0, 0, false, false⟩ (by simp)
    obtain ⟨st', g1, g2, g3, g4, g5, _⟩ := mantLoop_digits (r := r) he { st with sawDot := true, dp := st.nd } h6
    refine ⟨st', ?_, ?_, ?_, ?_⟩
    · rw [List.append_assoc, h1, List.cons_append, mantLoop_dot _ h4, g1, mantLoop_stop hr]
    · rw [g2, number_append]
      simp only [h2]
      rfl
    · rw [g5]; simp [h5, h]
    · rw [g4]
      simpa using g3

theorem expLoop_digits {ds : List Char} (hd : Digits ds) : ∀ e : Nat,
    ds.foldl (fun n c => n * 10 + CoreSchema.digit c) e < 100000 →
    expLoop e ds = (ds.foldl (fun n c => n * 10 + CoreSchema.digit c) e, []) := by
  induction ds with
  | nil => intro e _; rfl
  | cons c ds ih =>
    intro e he
    have hc : IsDecDigit c := hd c (by simp)
    rw [List.foldl_cons] at he ⊢
    have hmono : ∀ (l : List Char) (n : Nat), n ≤ l.foldl (fun n c => n * 10 + CoreSchema.digit c) n := by
      intro l
      induction l with
      | nil => intro n; exact Nat.le_refl _
      | cons d l ih => intro n; rw [List.foldl_cons]; exact Nat.le_trans (by omega) (ih _)
    have := hmono ds (e * 10 + CoreSchema.digit c)
    have hlt : e < 10000 := by omega
    simp only [expLoop, (Schema.isDec_iff c).2 hc, if_true, hlt, digitVal_eq hc]
    exact ih (fun d hd' => hd d (by simp [hd'])) _ he

theorem readSign_signed {sign r : List Char} {neg : Bool} (h : Signed sign neg)
    (hr : ∀ c r', r = c :: r' → c ≠ '+' ∧ c ≠ '-') : readSign (sign ++ r) = (neg, r) := by
  cases h with
  | none =>
    cases r with
    | nil => rfl
    | cons c r =>
      obtain ⟨h1, h2⟩ := hr c r rfl
      simp only [List.nil_append]
      unfold readSign
      split
      · rename_i he; simp at he; exact absurd he.1 h1
      · rename_i he; simp at he; exact absurd he.1 h2
      · rfl
  | plus => rfl
  | minus => rfl

theorem mantissa_head {mant r : List Char} {m k : Nat} (hm : MantissaOf mant m k) :
    ∀ c r', mant ++ r = c :: r' → c ≠ '+' ∧ c ≠ '-' := by
  intro c r' he
  have hdig : ∀ {ds : List Char}, ds ≠ [] → Digits ds → ∀ {x}, ds ++ x = c :: r' → c ≠ '+' ∧ c ≠ '-' := by
    intro ds h hd x he
    cases ds with
    | nil => exact absurd rfl h
    | cons d ds =>
      simp at he
      have := Scalars.digit_not (hd d (by simp))
      rw [← he.1]
      exact ⟨this.2.1, this.1⟩
  cases hm with
  | fraction ds h hd => simp at he; rw [← he.1]; decide
  | whole _ h hd => exact hdig h hd he
  | both ds es h hd _ => exact hdig h hd (by rw [List.append_assoc] at he; exact he)

/-- C76 (partial: exponents below 100000): the text of a number is read as the number which it denotes. -/
theorem number_read_partial {s : List Char} {neg : Bool} {m k : Nat} {x : Int} (h : Number s neg m k x)
    (hx : x.natAbs < 100000) : readFloat s = some (neg, m, if m = 0 then 0 else x - k) := by
  cases h with
  | @mk sign mant ex neg m k x hs hm he =>
    have hex : ∀ c r', ex = c :: r' → c ≠ '.' ∧ ¬ IsDecDigit c := by
      intro c r' hc
      cases he with
      | none => simp at hc
      | some c' _ _ _ h' =>
        simp at hc
        rw [← hc.1]
        rcases h' with rfl | rfl <;> decide
    obtain ⟨st, h1, h2, h3, h4⟩ := mantLoop_mantissa hm hex
    unfold readFloat
    rw [List.append_assoc, readSign_signed hs (mantissa_head hm)]
    simp only [h1, h3, if_true]
    cases he with
    | none =>
      simp only [h2]
      congr 3
      split
      · rfl
      · omega
    | some c esign eneg ds hc hes hne hd =>
      have hdl : ∀ c r', ds = c :: r' → c ≠ '+' ∧ c ≠ '-' := by
        intro c r' hh
        have := Scalars.digit_not (hd c (by simp [hh]))
        exact ⟨this.2.1, this.1⟩
      simp only [hc, if_true, readSign_signed hes hdl]
      have hlt : number 10 ds < 100000 := by
        cases eneg <;> simp at hx <;> omega
      have hloop := expLoop_digits hd 0 hlt
      cases ds with
      | nil => exact absurd rfl hne
      | cons d ds =>
        simp only [(Schema.isDec_iff d).2 (hd d (by simp)), if_true, hloop, h2]
        congr 3
        split
        · rfl
        · have hn : (List.foldl (fun n c => n * 10 + CoreSchema.digit c) 0 (d :: ds)) = number 10 (d :: ds) := rfl
          rw [hn]
          omega

/-! ### Writing -/

theorem digitChar_dec : ∀ n, n < 10 → IsDecDigit (digitChar n) ∧ CoreSchema.digit (digitChar n) = n := by decide

theorem fmtExp_denotes {e : Int} (h : e.natAbs < 1000) : ExponentOf ('e' :: fmtExp e) e := by
  have key : ∀ ds : List Char, ds ≠ [] → Digits ds → number 10 ds = e.natAbs →
      ExponentOf ('e' :: (if e < 0 then '-' else '+') :: ds) e := by
    intro ds h1 h2 h3
    by_cases hneg : e < 0
    · have := ExponentOf.some 'e' ['-'] true ds (.inl rfl) .minus h1 h2
      rw [h3] at this
      simp only [hneg, if_true]
      have he : (if true = true then -((e.natAbs : Nat) : Int) else (e.natAbs : Nat)) = e := by simp; omega
      rw [he] at this
      exact this
    · have := ExponentOf.some 'e' ['+'] false ds (.inl rfl) .plus h1 h2
      rw [h3] at this
      simp only [hneg, if_false]
      have he : (if false = true then -((e.natAbs : Nat) : Int) else (e.natAbs : Nat)) = e := by simp; omega
      rw [he] at this
      exact this
  have h0 : IsDecDigit '0' ∧ CoreSchema.digit '0' = 0 := by decide
  unfold fmtExp
  simp only
  by_cases h10 : e.natAbs < 10
  · rw [if_pos h10]
    obtain ⟨a, b⟩ := digitChar_dec e.natAbs (by omega)
    refine key _ (by simp) ?_ (by simp [number, b, h0])
    intro c hc
    simp at hc
    rcases hc with rfl | rfl
    · exact h0.1
    · exact a
  · rw [if_neg h10]
    by_cases h100 : e.natAbs < 100
    · rw [if_pos h100]
      obtain ⟨a, b⟩ := digitChar_dec (e.natAbs / 10) (by omega)
      obtain ⟨a', b'⟩ := digitChar_dec (e.natAbs % 10) (by omega)
      refine key _ (by simp) ?_ (by simp [number, b, b']; omega)
      intro c hc
      simp at hc
      rcases hc with rfl | rfl
      · exact a
      · exact a'
    · rw [if_neg h100]
      obtain ⟨a, b⟩ := digitChar_dec (e.natAbs / 100) (by omega)
      obtain ⟨a', b'⟩ := digitChar_dec (e.natAbs / 10 % 10) (by omega)
      obtain ⟨a'', b''⟩ := digitChar_dec (e.natAbs % 10) (by omega)
      refine key _ (by simp) ?_ (by simp [number, b, b', b'']; omega)
      intro c hc
      simp at hc
      rcases hc with rfl | rfl | rfl
      · exact a
      · exact a'
      · exact a''

/-- C76: the text of a decimal number denotes it. -/
theorem text_denotes {d : Decimal} (hd : Digits d.digits) (he : d.dp.natAbs < 999) :
    Number (fmtE d) d.neg (number 10 d.digits) (d.digits.length - 1) (if d.digits = [] then 0 else d.dp - 1) := by
  have hs : Signed (if d.neg then ['-'] else []) d.neg := by
    cases d.neg
    · exact .none
    · exact .minus
  have hx : ExponentOf ('e' :: fmtExp (if d.digits = [] then 0 else d.dp - 1)) (if d.digits = [] then 0 else d.dp - 1) :=
    fmtExp_denotes (by split <;> omega)
  refine .mk hs ?_ hx
  match h : d.digits, hd with
  | [], _ =>
    have := MantissaOf.whole ['0'] (by simp) (by unfold Digits; decide)
    exact this
  | [c], hd => exact .whole [c] (by simp) hd
  | c :: c' :: cs, hd =>
    have := MantissaOf.both [c] (c' :: cs) (by simp) (fun x hx => hd x (by simp at hx; simp [hx]))
      (fun x hx => hd x (by simp at hx; rcases hx with h | h <;> simp [h]))
    simpa using this

/-- What is assumed of the shortest digits (`strconv`): digits without a zero in front, an exponent in the range of doubles, and
rounding to the nearest float gives the float again. -/
structure Contract {φ : Type} (R : Rounding φ) : Prop where
  digits : ∀ x, Digits (R.shortest x).digits
  front : ∀ x c cs, (R.shortest x).digits = c :: cs → c ≠ '0'
  range : ∀ x, (R.shortest x).dp.natAbs < 999
  back : ∀ x, R.round 64 (R.shortest x).neg (number 10 (R.shortest x).digits)
    (if (R.shortest x).digits = [] then 0 else (R.shortest x).dp - (R.shortest x).digits.length) = some x

theorem number_pos {c : Char} {cs : List Char} (hc : IsDecDigit c) (h0 : c ≠ '0') : number 10 (c :: cs) ≠ 0 := by
  have hpos : 0 < CoreSchema.digit c := by
    have : ∀ c ∈ "0123456789".toList, c ≠ '0' → 0 < CoreSchema.digit c := by decide
    exact this c hc h0
  have hmono : ∀ (l : List Char) (n : Nat), n ≤ l.foldl (fun n c => n * 10 + CoreSchema.digit c) n := by
    intro l
    induction l with
    | nil => intro n; exact Nat.le_refl _
    | cons d l ih => intro n; rw [List.foldl_cons]; exact Nat.le_trans (by omega) (ih _)
  have := hmono cs (0 * 10 + CoreSchema.digit c)
  unfold number
  rw [List.foldl_cons]
  omega

theorem number_float {s : List Char} {neg : Bool} {m k : Nat} {x : Int} (h : Number s neg m k x) :
    Schema.floatNumber s = true := by
  rw [Scalars.floatNumber_iff]
  have hsg : ∀ {t b}, Signed t b → Sign t := by
    intro t b h
    cases h
    · exact .inl rfl
    · exact .inr (.inr rfl)
    · exact .inr (.inl rfl)
  cases h with
  | @mk sign mant ex neg m k x hs hm he =>
    refine ⟨sign, mant, ex, rfl, hsg hs, ?_, ?_⟩
    · cases hm with
      | fraction ds h hd => exact .fraction ds h hd
      | whole _ h hd => exact .whole _ h hd
      | both ds es h hd he => exact .both ds es h hd he
    · cases he with
      | none => exact .none
      | some c sign neg ds hc hs h hd => exact .some c sign ds hc (hsg hs) h hd

/-- A text of digits, signs, points and the letter of the exponent. -/
theorem fmtE_chars {d : Decimal} (hd : Digits d.digits) (he : d.dp.natAbs < 999) :
    'e' ∈ fmtE d ∧ ∀ c ∈ fmtE d, IsDecDigit c ∨ c = '-' ∨ c = '+' ∨ c = '.' ∨ c = 'e' := by
  refine ⟨by simp [fmtE], ?_⟩
  intro c hc
  simp only [fmtE, List.mem_append, List.mem_cons] at hc
  rcases hc with (hc | hc) | hc | hc
  · split at hc <;> simp at hc
    exact .inr (.inl hc)
  · split at hc
    · simp at hc; subst hc; exact .inl (by decide)
    · rename_i c' hc'; simp at hc; subst hc; exact .inl (hd c (by simp [hc']))
    · rename_i c' cs _ hc'
      simp at hc
      rcases hc with rfl | rfl | hc
      · exact .inl (hd c (by simp [hc']))
      · exact .inr (.inr (.inr (.inl rfl)))
      · exact .inl (hd c (by simp [hc', hc]))
  · exact .inr (.inr (.inr (.inr hc)))
  · have hx := fmtExp_denotes (e := if d.digits = [] then 0 else d.dp - 1) (by split <;> omega)
    generalize (if d.digits = [] then 0 else d.dp - 1) = x at hx hc
    generalize hS : 'e' :: fmtExp x = S at hx
    cases hx with
    | none => simp at hS
    | some c' sign neg ds h1 h2 h3 h4 =>
      simp at hS
      rw [hS.2] at hc
      rcases List.mem_append.1 hc with hc | hc
      · cases h2 <;> simp at hc
        · exact .inr (.inr (.inl hc))
        · exact .inr (.inl hc)
      · exact .inl (h4 c hc)

/-- C76: the text of any float is of the class of floats and of no other one. -/
theorem text_is_float {φ : Type} {R : Rounding φ} (hR : Contract R) (v : GoFloat φ) :
    Schema.isFloat (fromFloat R v) = true ∧ Schema.isInteger (fromFloat R v) = false ∧
      Schema.isUnsignedInteger (fromFloat R v) = false ∧ Schema.isBoolean (fromFloat R v) = false ∧
      Schema.isNull (fromFloat R v) = false ∧ Timestamp.isTimestamp (fromFloat R v) = false := by
  have hfl : Schema.isFloat (fromFloat R v) = true := by
    match v with
    | .inf true => exact (by decide +kernel : Schema.isFloat "-.inf".toList = true)
    | .inf false => exact (by decide +kernel : Schema.isFloat ".inf".toList = true)
    | .nan => exact (by decide +kernel : Schema.isFloat ".nan".toList = true)
    | .fin x =>
      have := number_float (text_denotes (hR.digits x) (hR.range x))
      simp [Schema.isFloat, fromFloat, this]
  have hcl := Scalars.classes_disjoint (fromFloat R v)
  simp only [Scalars.classes, hfl, List.countP_cons, List.countP_nil] at hcl
  have hts : Timestamp.isTimestamp (fromFloat R v) = false := by
    rw [Bool.eq_false_iff]
    intro h
    have := (Timestamp.accepted_no_other_class h).2.2.2.2
    rw [hfl] at this
    cases this
  have hint : Schema.isInteger (fromFloat R v) = false ∧ Schema.isUnsignedInteger (fromFloat R v) = false := by
    match v with
    | .inf true =>
      exact (by decide +kernel : Schema.isInteger "-.inf".toList = false ∧ Schema.isUnsignedInteger "-.inf".toList = false)
    | .inf false =>
      exact (by decide +kernel : Schema.isInteger ".inf".toList = false ∧ Schema.isUnsignedInteger ".inf".toList = false)
    | .nan =>
      exact (by decide +kernel : Schema.isInteger ".nan".toList = false ∧ Schema.isUnsignedInteger ".nan".toList = false)
    | .fin x =>
      obtain ⟨h1, h2⟩ := fmtE_chars (hR.digits x) (hR.range x)
      simp only [fromFloat]
      generalize fmtE (R.shortest x) = s at h1 h2
      have hne : ¬ IsDecDigit 'e' := by decide
      have hplus : ∀ r : List Char, 'e' ∈ r → Schema.plusOf Schema.isDec r = false := by
        intro r hr
        rw [Bool.eq_false_iff]
        intro h
        exact hne (((Schema.plusOf_iff Schema.isDec_iff r).1 h).2 'e' hr)
      have hoct : Schema.octalInteger s = false := by
        unfold Schema.octalInteger
        split
        · rename_i r
          exact absurd (h2 'o' (by simp)) (by decide)
        · rfl
      have hhex : Schema.hexInteger s = false := by
        unfold Schema.hexInteger
        split
        · rename_i r
          exact absurd (h2 'x' (by simp)) (by decide)
        · rfl
      have hdrop : 'e' ∈ Schema.dropSign s := by
        unfold Schema.dropSign
        split
        · simpa using h1
        · simpa using h1
        · exact h1
      have hun : Schema.decimalUnsigned s = false := by
        unfold Schema.decimalUnsigned
        split
        · exact hplus _ (by simpa using h1)
        · exact hplus _ h1
      simp [Schema.isInteger, Schema.isUnsignedInteger, Schema.decimalInteger, hplus _ hdrop, hoct, hhex, hun]
  refine ⟨hfl, hint.1, hint.2, ?_, ?_, hts⟩
  · cases hb : Schema.isBoolean (fromFloat R v)
    · rfl
    · rw [hb] at hcl; simp at hcl <;> omega
  · cases hb : Schema.isNull (fromFloat R v)
    · rfl
    · rw [hb] at hcl; simp at hcl

/-- C76: the text of a finite float converts to what rounding makes of its shortest digits, at every bit size. -/
theorem text_converts {φ : Type} {R : Rounding φ} (hR : Contract R) (x : φ) (bits : Nat) :
    toFloat R (fromFloat R (.fin x)) bits =
      (R.round bits (R.shortest x).neg (number 10 (R.shortest x).digits)
        (if (R.shortest x).digits = [] then 0 else (R.shortest x).dp - (R.shortest x).digits.length)).map .fin := by
  obtain ⟨h1, h2⟩ := fmtE_chars (hR.digits x) (hR.range x)
  have hno : ∀ c, c ∈ fmtE (R.shortest x) → c ≠ 'n' ∧ c ≠ 'N' := by
    intro c hc
    constructor <;> rintro rfl <;> have := h2 _ hc <;> revert this <;> decide
  have hi : Schema.floatInfinity (fmtE (R.shortest x)) = false := by
    rw [Bool.eq_false_iff]
    intro h
    obtain ⟨sign, i, he, _, hi⟩ := (Scalars.floatInfinity_iff _).1 h
    have hn : 'n' ∈ i ∨ 'N' ∈ i := by
      simp at hi
      rcases hi with rfl | rfl | rfl <;> simp
    rcases hn with hn | hn
    · exact (hno 'n' (by rw [he]; simp [hn])).1 rfl
    · exact (hno 'N' (by rw [he]; simp [hn])).2 rfl
  have hn : Schema.notANumber (fmtE (R.shortest x)) = false := by
    rw [Bool.eq_false_iff]
    intro h
    simp only [Schema.notANumber, Bool.or_eq_true, decide_eq_true_eq] at h
    rcases h with (h | h) | h
    · exact (hno 'n' (by rw [h]; decide)).1 rfl
    · exact (hno 'N' (by rw [h]; decide)).2 rfl
    · exact (hno 'N' (by rw [h]; decide)).2 rfl
  have hr := number_read_partial (text_denotes (hR.digits x) (hR.range x)) (by
    have := hR.range x
    split <;> omega)
  simp only [toFloat, fromFloat, hi, hn, Bool.false_eq_true, if_false, hr]
  have he : (if number 10 (R.shortest x).digits = 0 then 0
      else (if (R.shortest x).digits = [] then 0 else (R.shortest x).dp - 1) - ((R.shortest x).digits.length - 1 : Nat)) =
      (if (R.shortest x).digits = [] then 0 else (R.shortest x).dp - (R.shortest x).digits.length : Int) := by
    match hds : (R.shortest x).digits with
    | [] => rfl
    | c :: cs =>
      have := number_pos (cs := cs) (hR.digits x c (by simp [hds])) (hR.front x c cs hds)
      simp only [this, if_false, List.length_cons, reduceCtorEq]
      omega
  rw [he]

/-- C76: the text of a float converts back to it. -/
theorem round_trip {φ : Type} {R : Rounding φ} (hR : Contract R) (v : GoFloat φ) :
    toFloat R (fromFloat R v) 64 = some v := by
  match v with
  | .inf true => rfl
  | .inf false => rfl
  | .nan => rfl
  | .fin x => rw [text_converts hR, hR.back]; rfl

/-- C76: different floats have different texts. -/
theorem text_injective {φ : Type} {R : Rounding φ} (hR : Contract R) {v w : GoFloat φ} (h : fromFloat R v = fromFloat R w) :
    v = w := by
  have := round_trip hR v
  rw [h, round_trip hR w] at this
  exact (Option.some.inj this).symm

/-- C76: generic decoding makes a float of the text of a float. -/
theorem generic_float {φ : Type} {R : Rounding φ} (hR : Contract R) (lib : Generic.Lib)
    (hl : ∀ s b, lib.toFloat s b = (toFloat R s b).isSome) (v : GoFloat φ) :
    Generic.scalarValue (GenericTime.withTimes lib) (fromFloat R v) = some (.float (fromFloat R v)) := by
  obtain ⟨h1, h2, h3, h4, h5, h6⟩ := text_is_float hR v
  simp [Generic.scalarValue, GenericTime.withTimes, h1, h2, h3, h6, hl, round_trip hR v]

/-- C76: each text of the class of floats (with an exponent below 100000) converts to infinity, to no number, or to what rounding makes
of the number which it denotes. -/
theorem float_text_converts_partial {φ : Type} (R : Rounding φ) (bits : Nat) {s : List Char} (h : Schema.isFloat s = true) :
    toFloat R s bits = some (.inf true) ∨ toFloat R s bits = some (.inf false) ∨ toFloat R s bits = some .nan ∨
      ∃ neg m k x, Number s neg m k x ∧
        (x.natAbs < 100000 → toFloat R s bits = (R.round bits neg m (if m = 0 then 0 else x - k)).map .fin) := by
  by_cases hi : Schema.floatInfinity s = true
  · simp only [toFloat, hi, if_true]
    by_cases hh : s.head? = some '-' <;> simp [hh]
  · by_cases hn : Schema.notANumber s = true
    · simp [toFloat, hi, hn]
    · simp only [Schema.isFloat, hi, hn, Bool.or_false] at h
      obtain ⟨sign, mant, ex, he, hs, hm, hx⟩ := (Scalars.floatNumber_iff s).1 h
      have hsg : ∀ {t : List Char}, Sign t → ∃ b, Signed t b := by
        rintro t (rfl | rfl | rfl)
        · exact ⟨_, .none⟩
        · exact ⟨_, .minus⟩
        · exact ⟨_, .plus⟩
      obtain ⟨neg, hs'⟩ := hsg hs
      have hm' : ∃ m k, MantissaOf mant m k := by
        cases hm with
        | fraction ds h hd => exact ⟨_, _, .fraction ds h hd⟩
        | whole _ h hd => exact ⟨_, _, .whole _ h hd⟩
        | both ds es h hd h' => exact ⟨_, _, .both ds es h hd h'⟩
      have hx' : ∃ x, ExponentOf ex x := by
        cases hx with
        | none => exact ⟨_, .none⟩
        | some c sign ds hc hs h hd =>
          obtain ⟨b, hb⟩ := hsg hs
          exact ⟨_, .some c sign b ds hc hb h hd⟩
      obtain ⟨m, k, hm'⟩ := hm'
      obtain ⟨x, hx'⟩ := hx'
      have hnum : Number s neg m k x := he ▸ .mk hs' hm' hx'
      refine .inr (.inr (.inr ⟨neg, m, k, x, hnum, fun hlt => ?_⟩))
      simp only [toFloat, hi, hn, Bool.false_eq_true, if_false, number_read_partial hnum hlt]

theorem mantLoop_after {s r : List Char} : ∀ {st st' : Mant}, st.sawDot = true → mantLoop st s = (st', r) →
    ∃ pre, s = pre ++ r ∧ Digits pre ∧ (st'.sawDigits = true → st.sawDigits = true ∨ pre ≠ []) := by
  induction s with
  | nil =>
    intro st st' _ h
    simp only [mantLoop, Prod.mk.injEq] at h
    obtain ⟨rfl, rfl⟩ := h
    exact ⟨[], rfl, by simp [Digits], .inl⟩
  | cons c s ih =>
    intro st st' hst h
    have stop : (st, c :: s) = (st', r) →
        ∃ pre, c :: s = pre ++ r ∧ Digits pre ∧ (st'.sawDigits = true → st.sawDigits = true ∨ pre ≠ []) := by
      rintro ⟨⟩
      exact ⟨[], rfl, by simp [Digits], .inl⟩
    have go : ∀ st1 : Mant, st1.sawDot = true → IsDecDigit c → mantLoop st1 s = (st', r) →
        ∃ pre, c :: s = pre ++ r ∧ Digits pre ∧ (st'.sawDigits = true → st.sawDigits = true ∨ pre ≠ []) := by
      intro st1 h1 hc h2
      obtain ⟨pre, rfl, hd, _⟩ := ih h1 h2
      refine ⟨c :: pre, rfl, ?_, fun _ => .inr (by simp)⟩
      intro x hx
      rcases List.mem_cons.1 hx with rfl | hx
      · exact hc
      · exact hd x hx
    unfold mantLoop at h
    by_cases hdot : c = '.'
    · rw [if_pos hdot, if_pos hst] at h
      exact stop h
    · rw [if_neg hdot] at h
      by_cases hc : Schema.isDec c = true
      · rw [if_pos hc] at h
        have hc' := (Schema.isDec_iff c).1 hc
        by_cases h0 : c = '0' ∧ st.nd = 0
        · rw [if_pos h0] at h
          exact go _ (by exact hst) hc' h
        · rw [if_neg h0] at h
          exact go _ (by exact hst) hc' h
      · rw [if_neg hc] at h
        exact stop h

theorem mantLoop_before {s r : List Char} : ∀ {st st' : Mant}, st.sawDot = false → mantLoop st s = (st', r) →
    (∃ ds, s = ds ++ r ∧ Digits ds ∧ (st'.sawDigits = true → st.sawDigits = true ∨ ds ≠ [])) ∨
      ∃ ds es, s = ds ++ '.' :: es ++ r ∧ Digits ds ∧ Digits es ∧
        (st'.sawDigits = true → st.sawDigits = true ∨ ds ≠ [] ∨ es ≠ []) := by
  induction s with
  | nil =>
    intro st st' _ h
    simp only [mantLoop, Prod.mk.injEq] at h
    obtain ⟨rfl, rfl⟩ := h
    exact .inl ⟨[], rfl, by simp [Digits], .inl⟩
  | cons c s ih =>
    intro st st' hst h
    have cons : ∀ {ds : List Char}, IsDecDigit c → Digits ds → Digits (c :: ds) := by
      intro ds hc hd x hx
      rcases List.mem_cons.1 hx with rfl | hx
      · exact hc
      · exact hd x hx
    have go : ∀ st1 : Mant, st1.sawDot = false → IsDecDigit c → mantLoop st1 s = (st', r) →
        (∃ ds, c :: s = ds ++ r ∧ Digits ds ∧ (st'.sawDigits = true → st.sawDigits = true ∨ ds ≠ [])) ∨
        ∃ ds es, c :: s = ds ++ '.' :: es ++ r ∧ Digits ds ∧ Digits es ∧
          (st'.sawDigits = true → st.sawDigits = true ∨ ds ≠ [] ∨ es ≠ []) := by
      intro st1 h1 hc h2
      rcases ih h1 h2 with ⟨ds, h3, hd, _⟩ | ⟨ds, es, h3, hd, he, _⟩
      · exact .inl ⟨c :: ds, by simp [h3], cons hc hd, fun _ => .inr (by simp)⟩
      · exact .inr ⟨c :: ds, es, by simp [h3], cons hc hd, he, fun _ => .inr (.inl (by simp))⟩
    unfold mantLoop at h
    by_cases hdot : c = '.'
    · rw [if_pos hdot, if_neg (by simp [hst])] at h
      obtain ⟨pre, h3, hd, h4⟩ := mantLoop_after (by rfl) h
      exact .inr ⟨[], pre, by simp [h3, hdot], by simp [Digits], hd, fun h => (h4 h).imp id .inr⟩
    · rw [if_neg hdot] at h
      by_cases hc : Schema.isDec c = true
      · rw [if_pos hc] at h
        have hc' := (Schema.isDec_iff c).1 hc
        by_cases h0 : c = '0' ∧ st.nd = 0
        · rw [if_pos h0] at h
          exact go _ (by exact hst) hc' h
        · rw [if_neg h0] at h
          exact go _ (by exact hst) hc' h
      · rw [if_neg hc] at h
        cases h
        exact .inl ⟨[], rfl, by simp [Digits], .inl⟩

theorem expLoop_all {s : List Char} : ∀ {e n : Nat}, expLoop e s = (n, []) → Digits s := by
  induction s with
  | nil => intro _ _ _; simp [Digits]
  | cons c s ih =>
    intro e n h
    unfold expLoop at h
    by_cases hc : Schema.isDec c = true
    · rw [if_pos hc] at h
      intro x hx
      rcases List.mem_cons.1 hx with rfl | hx
      · exact (Schema.isDec_iff _).1 hc
      · exact ih h x hx
    · rw [if_neg hc] at h
      cases h

theorem readSign_split (s : List Char) : ∃ sign, s = sign ++ (readSign s).2 ∧ Sign sign := by
  unfold readSign
  split
  · exact ⟨['+'], rfl, .inr (.inr rfl)⟩
  · exact ⟨['-'], rfl, .inr (.inl rfl)⟩
  · exact ⟨[], rfl, .inl rfl⟩

/-- C76: only numbers of the core schema are read. -/
theorem read_only_numbers {s : List Char} {v : Bool × Nat × Int} (h : readFloat s = some v) : Schema.floatNumber s = true := by
  rw [Scalars.floatNumber_iff]
  obtain ⟨sign, hs, hsg⟩ := readSign_split s
  unfold readFloat at h
  generalize readSign s = p at h hs
  obtain ⟨neg, s1⟩ := p
  simp only at h hs
  cases hm : mantLoop ⟨0, 0, 0, false, false⟩ s1 with
  | mk st r =>
    rw [hm] at h
    simp only at h
    by_cases hd : st.sawDigits = true
    · rw [if_pos hd] at h
      have hmant : ∃ m, s1 = m ++ r ∧ Mantissa m := by
        rcases mantLoop_before (by rfl) hm with ⟨ds, h1, h2, h3⟩ | ⟨ds, es, h1, h2, h3, h4⟩
        · exact ⟨ds, h1, .whole ds ((h3 hd).resolve_left (by simp)) h2⟩
        · refine ⟨ds ++ '.' :: es, h1, ?_⟩
          cases ds with
          | nil => exact .fraction es (((h4 hd).resolve_left (by simp)).resolve_left (by simp)) h3
          | cons d ds => exact .both (d :: ds) es (by simp) h2 h3
      obtain ⟨m, hm1, hm2⟩ := hmant
      refine ⟨sign, m, r, by rw [hs, hm1, List.append_assoc], hsg, hm2, ?_⟩
      cases r with
      | nil => exact .none
      | cons c r =>
        simp only at h
        by_cases hc : c = 'e' ∨ c = 'E'
        · rw [if_pos hc] at h
          obtain ⟨sg, hr, hsg'⟩ := readSign_split r
          generalize readSign r = q at h hr
          obtain ⟨eneg, r1⟩ := q
          simp only at h hr
          cases r1 with
          | nil => cases h
          | cons d r1 =>
            simp only at h
            by_cases hdd : Schema.isDec d = true
            · rw [if_pos hdd] at h
              cases hx : expLoop 0 (d :: r1) with
              | mk e rest =>
                rw [hx] at h
                simp only at h
                by_cases hrest : rest = []
                · subst hrest
                  rw [hr]
                  exact .some c sg (d :: r1) hc hsg' (by simp) (expLoop_all hx)
                · rw [if_neg hrest] at h
                  cases h
            · rw [if_neg hdd] at h
              cases h
        · rw [if_neg hc] at h
          cases h
    · rw [if_neg hd] at h
      cases h

/-- C76: what converts is of the class of floats. -/
theorem converted_is_float {φ : Type} (R : Rounding φ) {bits : Nat} {s : List Char} {v : GoFloat φ}
    (h : toFloat R s bits = some v) : Schema.isFloat s = true := by
  unfold toFloat at h
  by_cases hi : Schema.floatInfinity s = true
  · simp [Schema.isFloat, hi]
  · by_cases hn : Schema.notANumber s = true
    · simp [Schema.isFloat, hn]
    · rw [if_neg hi, if_neg hn] at h
      cases hr : readFloat s with
      | none => rw [hr] at h; cases h
      | some v => simp [Schema.isFloat, read_only_numbers hr]

/-- Exponents of more digits are cut: the last digit of this one is lost. -/
theorem long_exponent_cut : readFloat "1e123456".toList = some (false, 1, 12345) := by decide +kernel

example : Number "-12.50e+3".toList true 1250 2 3 :=
  .mk (sign := ['-']) (mant := "12.50".toList) (ex := "e+3".toList) .minus
    (.both ['1', '2'] ['5', '0'] (by simp) (by unfold Digits; decide) (by unfold Digits; decide))
    (.some 'e' ['+'] false ['3'] (.inl rfl) .plus (by simp) (by unfold Digits; decide))

example : readFloat "-12.50e+3".toList = some (true, 1250, 1) ∧ readFloat "1.2.3".toList = none := by decide +kernel

example : fmtE ⟨true, "125".toList, -6⟩ = "-1.25e-07".toList ∧ fmtE ⟨false, "1".toList, 309⟩ = "1e+308".toList ∧
    fmtE ⟨false, [], 0⟩ = "0e+00".toList := by decide +kernel

/-- Numbers of one digit, with the rounding which knows no others. -/
def small : Rounding (Fin 10) where
  shortest n := ⟨false, if n.1 = 0 then [] else [digitChar n.1], if n.1 = 0 then 0 else 1⟩
  round _ neg m e := if h : m < 10 then if neg = false ∧ e = 0 then some ⟨m, h⟩ else none else none

example : Contract small :=
  ⟨by unfold Digits; decide, by
    intro x c cs h
    have : ∀ n : Fin 10, ∀ c ∈ (small.shortest n).digits, c ≠ '0' := by decide
    exact this x c (by rw [h]; simp), by decide, by decide⟩

end Verif.Props.Float
