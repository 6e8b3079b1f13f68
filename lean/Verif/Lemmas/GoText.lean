import Lean.Elab.Tactic
import Verif.Spec.GoText
import Verif.Model.GenText

/-!
Scanning a text for brackets, and the texts of the generator.
-/

namespace Verif.GoText

open Verif.GenText

/-- Where a scan is: in code, in a literal, after a backslash in a literal, in a raw literal; with the open brackets. -/
inductive Scan where
  | code (st : List Char)
  | lit (st : List Char)
  | esc (st : List Char)
  | raw (st : List Char)
  | bad
deriving DecidableEq, Repr

def shut (st : List Char) (c : Char) : Scan :=
  match st with
  | o :: st => if closing o = some c then .code st else .bad
  | [] => .bad

def next : Scan → Char → Scan
  | .code st, c =>
    if c = '"' then .lit st
    else if c = '`' then .raw st
    else if (closing c).isSome then .code (c :: st)
    else if c = ')' ∨ c = ']' ∨ c = '}' then shut st c
    else .code st
  | .lit st, c => if c = '"' then .code st else if c = '\\' then .esc st else if c = '\n' then .bad else .lit st
  | .esc st, c => if c = '\n' then .bad else .lit st
  | .raw st, c => if c = '`' then .code st else .raw st
  | .bad, _ => .bad

def scan (s : Scan) (x : List Char) : Scan := x.foldl next s

theorem scan_append (s : Scan) (x y : List Char) : scan s (x ++ y) = scan (scan s x) y := List.foldl_append

theorem scan_cons (s : Scan) (c : Char) (y : List Char) : scan s (c :: y) = scan (next s c) y := rfl

theorem scan_nil (s : Scan) : scan s [] = s := rfl

theorem scan_bad (x : List Char) : scan .bad x = .bad := by
  induction x with
  | nil => rfl
  | cons c x ih => exact ih

theorem next_plain {c : Char} (h : Plain c) (st : List Char) : next (.code st) c = .code st := by
  simp only [Plain, List.mem_cons, List.not_mem_nil, or_false, not_or] at h
  obtain ⟨h1, h2, h3, h4, h5, h6, h7, h8⟩ := h
  have : closing c = none := by
    unfold closing
    split <;> simp_all
  simp [next, h7, h8, h2, h4, h6, this]

theorem next_open {o c : Char} (h : closing o = some c) (st : List Char) : next (.code st) o = .code (o :: st) := by
  have h1 : o ≠ '"' := by rintro rfl; simp [closing] at h
  have h2 : o ≠ '`' := by rintro rfl; simp [closing] at h
  simp [next, h1, h2, h]

theorem next_close {o c : Char} (h : closing o = some c) (st : List Char) : next (.code (o :: st)) c = .code st := by
  have : (o = '(' ∧ c = ')') ∨ (o = '[' ∧ c = ']') ∨ (o = '{' ∧ c = '}') := by
    unfold closing at h
    split at h <;> simp_all [eq_comm]
  rcases this with ⟨rfl, rfl⟩ | ⟨rfl, rfl⟩ | ⟨rfl, rfl⟩ <;> rfl

theorem scan_inside {s : List Char} (h : Inside s) (st : List Char) : scan (.lit st) s = .lit st := by
  induction h with
  | nil => rfl
  | char h1 h2 h3 _ ih => rw [scan_cons]; simp [next, h1, h2, h3, ih]
  | escape h1 _ ih => rw [scan_cons, scan_cons]; simp [next, h1, ih]

theorem scan_rawText {s : List Char} (h : '`' ∉ s) (st : List Char) : scan (.raw st) s = .raw st := by
  induction s with
  | nil => rfl
  | cons c s ih =>
    simp only [List.mem_cons, not_or] at h
    rw [scan_cons]
    simp [next, Ne.symm h.1, ih h.2]

/-- The scan leaves the open brackets as they are. -/
def Neutral (x : List Char) : Prop := ∀ st, scan (.code st) x = .code st

theorem Closed.neutral {x : List Char} (h : Closed x) : Neutral x := by
  induction h with
  | nil => intro st; rfl
  | plain hc _ ih => intro st; rw [scan_cons, next_plain hc, ih]
  | bracket ho _ _ ih1 ih2 => intro st; rw [scan_cons, next_open ho, scan_append, ih1, scan_cons, next_close ho, ih2]
  | literal hs _ ih =>
    intro st
    rw [scan_cons, show next (.code st) '"' = .lit st from rfl, scan_append, scan_inside hs, scan_cons,
      show next (.lit st) '"' = .code st from rfl, ih]
  | raw hs _ ih =>
    intro st
    rw [scan_cons, show next (.code st) '`' = .raw st from rfl, scan_append, scan_rawText hs, scan_cons,
      show next (.raw st) '`' = .code st from rfl, ih]

/-- What is left after the brackets `st` have been opened. -/
inductive Left : List Char → List Char → Prop
  | nil {x} : Closed x → Left [] x
  | cons {o c st x y} : Closed x → closing o = some c → Left st y → Left (o :: st) (x ++ c :: y)

theorem Left.glue {p : List Char} (hp : ∀ r, Closed r → Closed (p ++ r)) {st x : List Char} (h : Left st x) :
    Left st (p ++ x) := by
  cases h with
  | nil hx => exact .nil (hp _ hx)
  | cons hx ho hy =>
    rw [← List.append_assoc]
    exact .cons (hp _ hx) ho hy

theorem left_of_scan : ∀ (n : Nat) (x : List Char), x.length ≤ n → ∀ st,
    (scan (.code st) x = .code [] → Left st x) ∧
    (scan (.lit st) x = .code [] → ∃ s y, x = s ++ '"' :: y ∧ Inside s ∧ Left st y) ∧
    (scan (.esc st) x = .code [] → ∃ c s y, x = c :: (s ++ '"' :: y) ∧ c ≠ '\n' ∧ Inside s ∧ Left st y) ∧
    (scan (.raw st) x = .code [] → ∃ s y, x = s ++ '`' :: y ∧ '`' ∉ s ∧ Left st y) := by
  intro n
  induction n with
  | zero =>
    intro x hx st
    obtain rfl : x = [] := List.length_eq_zero_iff.1 (by omega)
    refine ⟨fun h => ?_, fun h => ?_, fun h => ?_, fun h => ?_⟩
    · cases h; exact .nil .nil
    · cases h
    · cases h
    · cases h
  | succ n ih =>
    intro x hx st
    cases x with
    | nil =>
      refine ⟨fun h => ?_, fun h => ?_, fun h => ?_, fun h => ?_⟩
      · cases h; exact .nil .nil
      · cases h
      · cases h
      · cases h
    | cons c x =>
      replace hx : x.length ≤ n := by simpa using hx
      refine ⟨fun h => ?_, fun h => ?_, fun h => ?_, fun h => ?_⟩
      · rw [scan_cons] at h
        by_cases h1 : c = '"'
        · subst h1
          obtain ⟨s, y, rfl, hs, hy⟩ := (ih x hx st).2.1 h
          have := Left.glue (p := '"' :: (s ++ ['"'])) (fun r hr => by simpa using Closed.literal hs hr) hy
          simpa using this
        · by_cases h2 : c = '`'
          · subst h2
            obtain ⟨s, y, rfl, hs, hy⟩ := (ih x hx st).2.2.2 h
            have := Left.glue (p := '`' :: (s ++ ['`'])) (fun r hr => by simpa using Closed.raw hs hr) hy
            simpa using this
          · cases h3 : closing c with
            | some d =>
              rw [next_open h3] at h
              have := (ih x hx (c :: st)).1 h
              cases this with
              | @cons _ d' _ s y hs ho hy =>
                have := Left.glue (p := c :: (s ++ [d'])) (fun r hr => by simpa using Closed.bracket ho hs hr) hy
                simpa using this
            | none =>
              by_cases h4 : c = ')' ∨ c = ']' ∨ c = '}'
              · have he : next (.code st) c = shut st c := by simp [next, h1, h2, h3, h4]
                rw [he] at h
                cases st with
                | nil => simp [shut, scan_bad] at h
                | cons o st =>
                  by_cases h5 : closing o = some c
                  · simp [shut, h5] at h
                    exact .cons (x := []) .nil h5 ((ih x hx st).1 h)
                  · simp [shut, h5, scan_bad] at h
              · have hp : Plain c := by
                  simp only [Plain, List.mem_cons, List.not_mem_nil, or_false, not_or]
                  simp only [not_or] at h4
                  refine ⟨?_, h4.1, ?_, h4.2.1, ?_, h4.2.2, h1, h2⟩ <;> rintro rfl <;> simp [closing] at h3
                rw [next_plain hp] at h
                exact Left.glue (p := [c]) (fun r hr => .plain hp hr) ((ih x hx st).1 h)
      · rw [scan_cons] at h
        by_cases h1 : c = '"'
        · subst h1
          exact ⟨[], x, rfl, .nil, (ih x hx st).1 h⟩
        · by_cases h2 : c = '\\'
          · subst h2
            obtain ⟨d, s, y, rfl, hd, hs, hy⟩ := (ih x hx st).2.2.1 h
            exact ⟨'\\' :: d :: s, y, rfl, .escape hd hs, hy⟩
          · by_cases h3 : c = '\n'
            · simp [next, h1, h2, h3, scan_bad] at h
            · simp only [next, h1, h2, h3, if_false] at h
              obtain ⟨s, y, rfl, hs, hy⟩ := (ih x hx st).2.1 h
              exact ⟨c :: s, y, rfl, .char h1 h2 h3 hs, hy⟩
      · rw [scan_cons] at h
        by_cases h3 : c = '\n'
        · simp [next, h3, scan_bad] at h
        · simp only [next, h3, if_false] at h
          obtain ⟨s, y, rfl, hs, hy⟩ := (ih x hx st).2.1 h
          exact ⟨c, s, y, rfl, h3, hs, hy⟩
      · rw [scan_cons] at h
        by_cases h1 : c = '`'
        · subst h1
          exact ⟨[], x, rfl, by simp, (ih x hx st).1 h⟩
        · simp only [next, h1, if_false] at h
          obtain ⟨s, y, rfl, hs, hy⟩ := (ih x hx st).2.2.2 h
          exact ⟨c :: s, y, rfl, by simp [Ne.symm h1, hs], hy⟩

theorem closed_of_scan {x : List Char} (h : scan (.code []) x = .code []) : Closed x := by
  cases (left_of_scan x.length x (Nat.le_refl _) []).1 h with
  | nil h => exact h

theorem closed_iff {x : List Char} : Closed x ↔ scan (.code []) x = .code [] :=
  ⟨fun h => h.neutral [], closed_of_scan⟩

theorem Neutral.closed {x : List Char} (h : Neutral x) : Closed x := closed_of_scan (h [])

theorem Neutral.nil : Neutral [] := fun _ => rfl

theorem Neutral.append {x y : List Char} (hx : Neutral x) (hy : Neutral y) : Neutral (x ++ y) := by
  intro st; rw [scan_append, hx, hy]

theorem neutral_plain {x : List Char} (h : ∀ c ∈ x, Plain c) : Neutral x := by
  induction x with
  | nil => exact .nil
  | cons c x ih =>
    intro st
    rw [scan_cons, next_plain (h c (by simp)), ih (fun d hd => h d (by simp [hd]))]

theorem neutral_spaces (n : Nat) : Neutral (spaces n) :=
  neutral_plain fun c hc => by
    obtain rfl := (List.mem_replicate.1 hc).2
    decide

theorem plain_digit {c : Char} (h : c.isDigit = true) : Plain c := by
  simp only [Plain, List.mem_cons, List.not_mem_nil, or_false, not_or]
  refine ⟨?_, ?_, ?_, ?_, ?_, ?_, ?_, ?_⟩ <;> rintro rfl <;> revert h <;> decide

theorem neutral_number (n : Nat) : Neutral (number n) :=
  neutral_plain fun _ hc => plain_digit (Nat.isDigit_of_mem_toDigits (by decide) (by decide) hc)

theorem neutral_quoted {s : List Char} (h : Inside s) : Neutral (quoted s) :=
  (Closed.literal h .nil).neutral

/-- Whatever is written takes the scan from one place to another. -/
structure Reach (w : W) (s s' : Scan) : Prop where
  run : ∀ n x n', w n = .ok (some (x, n')) → scan s x = s'

/-- Whatever is written leaves the open brackets as they are. -/
def Quiet (w : W) : Prop := ∀ st, Reach w (.code st) (.code st)

theorem Reach.seq {a b : W} {s s1 s2 : Scan} (ha : Reach a s s1) (hb : Reach b s1 s2) : Reach (a.seq b) s s2 := by
  refine ⟨fun n x n' h => ?_⟩
  simp only [W.seq] at h
  split at h <;> try cases h
  rename_i y m hy
  split at h <;> try cases h
  rename_i z k hz
  rw [scan_append, ha.run _ _ _ hy, hb.run _ _ _ hz]

theorem Reach.say {t : Text} {s s' : Scan} (h : scan s t = s') : Reach (say t) s s' := by
  refine ⟨fun n x n' e => ?_⟩
  cases e
  exact h

theorem Reach.nil {s : Scan} : Reach (all []) s s := Reach.say rfl

theorem Reach.cons {w : W} {ws : List W} {s s1 s2 : Scan} (h : Reach w s s1) (hs : Reach (all ws) s1 s2) :
    Reach (all (w :: ws)) s s2 := Reach.seq h hs

theorem Reach.line {t : Text} {s : Scan} {st : List Char} (h : scan s t = .code st) : Reach (line t) s (.code st) :=
  Reach.say (by rw [scan_append, h]; rfl)

theorem Quiet.at {w : W} (h : Quiet w) {st : List Char} : Reach w (.code st) (.code st) := h st

theorem scan_app {x y : List Char} {s s1 s2 : Scan} (hx : scan s x = s1) (hy : scan s1 y = s2) : scan s (x ++ y) = s2 := by
  rw [scan_append, hx, hy]

theorem scan_colon {c : Char} {y : List Char} {s s1 s2 : Scan} (hx : scan s [c] = s1) (hy : scan s1 y = s2) :
    scan s (c :: y) = s2 := by
  rw [scan_cons]; cases hx; exact hy

theorem Neutral.at {x : List Char} (h : Neutral x) {st : List Char} : scan (.code st) x = .code st := h st

theorem Reach.fresh {sfx : Text} {k : Text → W} {s s' : Scan} (hs : Neutral sfx)
    (h : ∀ v, Neutral v → Reach (k v) s s') : Reach (fresh sfx k) s s' :=
  ⟨fun n x n' e => (h _ (((neutral_plain (by decide) : Neutral "v".toList).append (neutral_number _)).append hs)).run _ _ _ e⟩

theorem Reach.fail {s s' : Scan} : Reach fail s s' := ⟨fun n x n' e => by cases e⟩

open Lean Meta Elab Tactic in
/-- Closes `scan (.code st) "…".toList = ?s` for a known literal: the brackets are followed here, and the kernel checks the
answer. -/
elab "scan_literal" : tactic => withMainContext do
  let goal ← getMainGoal
  let some (_, lhs, rhs) := (← instantiateMVars (← goal.getType)).eq? | throwError "no equation"
  let_expr scan s x := lhs | throwError "no scan"
  let_expr String.toList l := x | throwError "no literal"
  let .lit (.strVal str) := l | throwError "no literal"
  let_expr Scan.code st := s | throwError "not in code"
  let mut stack := st
  let mut quoted := false
  for c in str.toList do
    if quoted then
      if c == '"' then quoted := false
    else if c == '"' then quoted := true
    else if (closing c).isSome then stack ← mkAppM ``List.cons #[toExpr c, stack]
    else if c == ')' || c == ']' || c == '}' then
      let_expr List.cons _ _ r := stack | throwError "nothing open"
      stack := r
  let res ← mkAppM ``Scan.code #[stack]
  unless ← isDefEq rhs res do throwError "another place"
  goal.assign (← mkExpectedTypeHint (← mkEqRefl res) (← mkEq lhs res))

/-- Follow the brackets of a text. -/
macro "scanning" : tactic => `(tactic| repeat' (first
  | with_reducible exact Reach.nil
  | with_reducible exact scan_nil _
  | with_reducible exact Reach.fail
  | with_reducible exact (neutral_spaces _).at
  | with_reducible exact (neutral_number _).at
  | (with_reducible apply Neutral.at; with_reducible assumption)
  | (with_reducible apply Quiet.at; with_reducible assumption)
  | with_reducible apply Reach.cons
  | with_reducible apply Reach.seq
  | with_reducible apply Reach.line
  | with_reducible apply Reach.say
  | with_reducible apply scan_app
  | scan_literal
  | with_reducible exact rfl))

theorem Neutral.tail {x : List Char} (h : Neutral ('*' :: x)) : Neutral x := by
  intro st
  have := h st
  rwa [scan_cons, next_plain (by decide)] at this

theorem Neutral.star {x : List Char} (h : Neutral x) : Neutral ('*' :: x) := by
  intro st
  rw [scan_cons, next_plain (by decide), h]

theorem neutral_decMethod {p : Place} {m : Text} (hp : Neutral p.text) (hm : Neutral m) : Neutral (decMethod p m) := by
  intro st
  rw [decMethod, scan_cons]
  exact scan_app hp.at (scan_app (s1 := .code st) rfl hm.at)

theorem Neutral.dot {x : List Char} (h : Neutral x) : Neutral ('.' :: x) := by
  intro st
  rw [scan_cons, next_plain (by decide), h]

theorem neutral_encMethod {p : Place} {m : Text} (hp : Neutral p.text) (hm : Neutral m) : Neutral (encMethod p m) :=
  hp.append hm.dot

theorem neutral_index {p : Place} {i : Text} (hp : Neutral p.text) (hi : Neutral i) : Neutral (Place.index p i).text := by
  intro st
  show scan (.code ('(' :: st)) _ = _
  scanning

theorem neutral_field {x f : Text} (hx : Neutral x) (hf : Neutral f) : Neutral (Place.field x f).text :=
  hx.append hf.dot

theorem neutral_decCall (b : Basic) : Neutral (decCall b) := by
  intro st
  cases b with
  | string => show scan (.code st) "in.String()".toList = .code st; scanning
  | bool => show scan (.code st) "in.Boolean()".toList = .code st; scanning
  | int n => show scan (.code st) ("in.Integer(".toList ++ (number n ++ ")".toList)) = .code st; scanning
  | uint n => show scan (.code st) ("in.Unsigned(".toList ++ (number n ++ ")".toList)) = .code st; scanning
  | float n => show scan (.code st) ("in.Float(".toList ++ (number n ++ ")".toList)) = .code st; scanning

theorem neutral_encCall (b : Basic) {x : Text} (hx : Neutral x) : Neutral (encCall b x) := by
  intro st
  cases b with
  | string => show scan (.code st) ("out.InsertString(string(".toList ++ (x ++ "))".toList)) = .code st; scanning
  | bool => show scan (.code st) ("out.InsertBoolean(bool(".toList ++ (x ++ "))".toList)) = .code st; scanning
  | int n => show scan (.code st) ("out.InsertInteger(int64(".toList ++ (x ++ "))".toList)) = .code st; scanning
  | uint n => show scan (.code st) ("out.InsertUnsigned(uint64(".toList ++ (x ++ "))".toList)) = .code st; scanning
  | float n => show scan (.code st) ("out.InsertFloat(float64(".toList ++ (x ++ "))".toList)) = .code st; scanning

section

variable {τ : Type} [DecidableEq τ] (ty : Types τ) (eng : Engine) (o : Opts)

/-- What is asked of the names. -/
structure Fine : Prop where
  name : ∀ t, Neutral (ty.name t)
  func : ∀ d t, Neutral (ty.func d t)
  field : ∀ t fs es, ty.kind t = .struct fs es → ∀ d ∈ fs, Neutral d.goName ∧ Inside d.name
  embedded : ∀ t fs es, ty.kind t = .struct fs es → ∀ e ∈ es, Neutral e.1

/-- The types at which the texts of the engines for decoders are closed. -/
def Safe : Prop := eng = .yayamls ∨ ((∀ t, ty.engine .dec t = false) ∧ ∀ t, ty.kind t ≠ .iface false)

variable {ty eng}

theorem check_quiet (hs : Safe ty eng) (t : τ) {p : Place} (hp : Neutral p.text) (indent : Nat) :
    (unmarshalersCheck ty eng t p indent).1 ≠ .conditional ∧ Quiet (unmarshalersCheck ty eng t p indent).2 := by
  unfold unmarshalersCheck
  have hm := neutral_decMethod (m := "UnmarshalYAML".toList) hp (neutral_plain (by decide +kernel))
  cases he : ty.engine .dec t with
  | false =>
    refine ⟨by simp, fun st => ?_⟩
    simp only [Bool.false_eq_true, if_false]
    scanning
  | true =>
    rcases hs with rfl | ⟨h, _⟩
    · refine ⟨by simp, fun st => ?_⟩
      simp only [if_true]
      scanning
    · rw [h] at he; cases he

theorem assertions_quiet {p : Place} (hp : Neutral p.text) (indent : Nat) :
    Quiet (unmarshalAssertions .yayamls p indent) := by
  intro st
  unfold unmarshalAssertions
  scanning

variable (ty eng)

theorem dec_quiet (hf : Fine ty) (hs : Safe ty eng) (cur : τ) : ∀ (f : Nat) (t : τ) (p : Place) (om : Bool) (indent : Nat)
    (elem : Bool), Neutral p.text →
    Quiet (decBody ty eng o cur f t p om indent elem) ∧ Quiet (decPlain ty eng o cur f t p om indent elem) := by
  intro f
  induction f with
  | zero =>
    intro t p om indent elem hp
    exact ⟨fun st => ⟨fun n x n' h => by cases h⟩, fun st => ⟨fun n x n' h => by cases h⟩⟩
  | succ f ih =>
    intro t p om indent elem hp
    have hm1 := neutral_decMethod (m := "UnmarshalYamly".toList) hp (neutral_plain (by decide +kernel))
    have hm2 := neutral_decMethod (m := "UnmarshalText".toList) hp (neutral_plain (by decide +kernel))
    constructor
    · intro st
      unfold decBody
      have hb := (ih t p om indent elem hp).2
      obtain ⟨hn, hc⟩ := check_quiet hs t hp indent
      split
      · split
        · scanning
        · dsimp only
          split
          · exact hc st
          · rename_i h; exact absurd h hn
          · split <;> scanning
      · scanning
    · intro st
      unfold decPlain
      have hn := hf.name t
      dsimp only
      split
      · scanning
      · split
        · rename_i b _
          have hd := neutral_decCall b
          scanning
        · rename_i e _
          have he := hf.name e
          split
          · scanning
          · refine Reach.fresh (neutral_plain (by decide +kernel)) fun v hv => ?_
            refine Reach.fresh .nil fun w hw => ?_
            have hb := (ih e (.var w) om (indent + 4) true hw).1
            scanning
        · rename_i len e _
          split
          · scanning
          · refine Reach.fresh (neutral_plain (by decide +kernel)) fun v hv => ?_
            refine Reach.fresh .nil fun w hw => ?_
            have hb := (ih e (.index p w) om (indent + 4) true (neutral_index hp hw)).1
            scanning
        · have hg := hf.func .dec t
          split
          · rename_i x hx
            have hx' : Neutral x := Neutral.tail (hx ▸ hp)
            scanning
          · scanning
        · rename_i e _
          have he := hf.name e
          have hb := (ih e (.deref p) om (indent + 2) elem hp.star).1
          cases elem
          · simp only [Bool.false_eq_true, if_false]
            scanning
          · simp only [if_true]
            scanning
        · rename_i k e _
          have hk := hf.name k
          have he := hf.name e
          refine Reach.fresh (neutral_plain (by decide +kernel)) fun u hu => ?_
          refine Reach.fresh (neutral_plain (by decide +kernel)) fun v hv => ?_
          refine Reach.fresh (neutral_plain (by decide +kernel)) fun w hw => ?_
          have hb1 := (ih k (.var v) om (indent + 4) true hv).1
          have hb2 := (ih e (.var w) om (indent + 4) true hw).1
          cases o.omitempty || om
          · simp only [Bool.false_eq_true, if_false]
            scanning
          · simp only [if_true]
            scanning
        · rename_i methods hk
          cases methods
          · simp only [Bool.false_eq_true, if_false]
            rcases hs with rfl | ⟨_, h⟩
            · have ha := assertions_quiet hp (indent + 2)
              scanning
            · exact absurd hk (h t)
          · simp only [if_true]
            split
            · scanning
            · obtain ⟨hn', hc⟩ := check_quiet hs t hp indent
              split
              · scanning
              · exact hc st
              · rename_i h; exact absurd h hn'
        · scanning

theorem marshalers_quiet (t : τ) {p : Place} (hp : Neutral p.text) (indent : Nat) :
    Quiet (marshalersCheck ty eng t p indent).2 := by
  have hm := neutral_encMethod (m := "MarshalYAML".toList) hp (neutral_plain (by decide +kernel))
  intro st
  unfold marshalersCheck
  cases ty.engine .enc t
  · simp only [Bool.false_eq_true, if_false]
    scanning
  · simp only [if_true]
    cases eng <;> dsimp only <;> scanning

theorem marshalAssertions_quiet {p : Place} (hp : Neutral p.text) (indent : Nat) :
    Quiet (marshalAssertions eng p indent) := by
  intro st
  unfold marshalAssertions
  cases eng <;> dsimp only <;> scanning

theorem enc_quiet (hf : Fine ty) (cur : τ) : ∀ (f : Nat) (t : τ) (p : Place) (om : Bool) (indent : Nat)
    (nul : Bool), Neutral p.text →
    Quiet (encBody ty eng o cur f t p om indent nul) ∧ Quiet (encPlain ty eng o cur f t p om indent nul) := by
  intro f
  induction f with
  | zero =>
    intro t p om indent nul hp
    exact ⟨fun st => ⟨fun n x n' h => by cases h⟩, fun st => ⟨fun n x n' h => by cases h⟩⟩
  | succ f ih =>
    intro t p om indent nul hp
    have hm1 := neutral_encMethod (m := "MarshalYamly".toList) hp (neutral_plain (by decide +kernel))
    have hm2 := neutral_encMethod (m := "MarshalText".toList) hp (neutral_plain (by decide +kernel))
    have hc := marshalers_quiet ty eng t hp indent
    constructor
    · intro st
      unfold encBody
      have hb := (ih t p om indent nul hp).2
      split
      · split
        · scanning
        · dsimp only
          split
          · exact hc st
          · split <;> scanning
      · scanning
    · intro st
      unfold encPlain
      dsimp only
      split
      · rename_i b _
        have hd := neutral_encCall b hp
        scanning
      · split
        · scanning
        · split
          · scanning
          · rename_i e _
            cases nul <;> simp only [Bool.false_eq_true, if_false, if_true] <;> split
            · scanning
            · refine Reach.cons (s1 := .code ('{' :: st)) (by scanning) (Reach.cons (s1 := .code ('{' :: st)) ?_ (by scanning))
              refine Reach.fresh .nil fun w hw => ?_
              have hb := (ih e (.var w) om (indent + 2) true hw).1
              scanning
            · scanning
            · refine Reach.cons (s1 := .code ('{' :: st)) (by scanning) (Reach.cons (s1 := .code ('{' :: st)) ?_ (by scanning))
              refine Reach.fresh .nil fun w hw => ?_
              have hb := (ih e (.var w) om (indent + 2) true hw).1
              scanning
          · rename_i e _
            split
            · scanning
            · refine Reach.fresh .nil fun w hw => ?_
              have hb := (ih e (.index p w) om (indent + 2) true (neutral_index hp hw)).1
              scanning
          · have hg := hf.func .enc t
            split
            · split
              · rename_i x hx
                have hx' : Neutral x := Neutral.tail (hx ▸ hp)
                scanning
              · scanning
            · scanning
          · rename_i e _
            have hb1 := (ih e (.deref p) om (indent + 4) true hp.star).1
            have hb2 := (ih e (.deref p) om (indent + 2) true hp.star).1
            cases nul <;> simp only [Bool.false_eq_true, if_false, if_true]
            · exact hb2 st
            · scanning
          · rename_i k e _
            refine Reach.fresh (neutral_plain (by decide +kernel)) fun v hv => ?_
            refine Reach.fresh (neutral_plain (by decide +kernel)) fun w hw => ?_
            have hb1 := (ih k (.var v) om (indent + 4) true hv).1
            have hb2 := (ih e (.var w) om (indent + 4) true hw).1
            cases nul <;> simp only [Bool.false_eq_true, if_false, if_true] <;> scanning
          · rename_i methods _
            cases methods
            · simp only [Bool.false_eq_true, if_false]
              have ha := marshalAssertions_quiet eng hp (indent + 2)
              scanning
            · simp only [if_true]
              split
              · scanning
              · split
                · scanning
                · exact hc st
          · scanning

theorem all_quiet {ws : List W} (h : ∀ w ∈ ws, Quiet w) : Quiet (all ws) := by
  induction ws with
  | nil => intro st; exact Reach.nil
  | cons w ws ih => intro st; exact Reach.cons (h w (by simp) st) (ih (fun v hv => h v (by simp [hv])) st)

theorem decField_quiet (hf : Fine ty) (hs : Safe ty eng) (cur : τ) (f : Nat) {d : Field τ} (hg : Neutral d.goName)
    (hi : Inside d.name) : Quiet (decField ty eng o cur f d) := by
  have hb := (dec_quiet ty eng o hf hs cur f d.type (.field "out".toList d.goName) d.omitempty 6 true
    (neutral_field (neutral_plain (by decide +kernel)) hg)).1
  have hq := neutral_quoted hi
  intro st
  unfold decField
  scanning

theorem decoder_quiet (hf : Fine ty) (hs : Safe ty eng) (f : Nat) (t : τ) : Quiet (decoder ty eng o f t) := by
  have hn := hf.name t
  have hg := hf.func .dec t
  intro st
  unfold decoder
  split
  · rename_i fs es hk
    have h1 : Quiet (all (es.map fun e => line ("  out.".toList ++ (e.1 ++ (" = new(".toList ++ (ty.name e.2 ++
        ")".toList)))))) := by
      refine all_quiet fun w hw => ?_
      obtain ⟨e, he, rfl⟩ := List.mem_map.1 hw
      have h2 := hf.embedded t fs es hk e he
      have h3 := hf.name e.2
      intro st
      scanning
    have h2 : Quiet (all (fs.map (decField ty eng o t f))) := by
      refine all_quiet fun w hw => ?_
      obtain ⟨d, hd, rfl⟩ := List.mem_map.1 hw
      obtain ⟨h3, h4⟩ := hf.field t fs es hk d hd
      exact decField_quiet ty eng o hf hs t f h3 h4
    unfold decStruct
    cases o.disallowUnknownFields <;> simp only [Bool.false_eq_true, if_false, if_true] <;> scanning
  · have ho : Neutral (Place.root "out".toList).text := neutral_plain (by decide +kernel)
    have hb := (dec_quiet ty eng o hf hs t f t (.deref (.root "out".toList)) false 4 false ho.star).1
    dsimp only
    scanning

theorem unmarshaler_quiet (hf : Fine ty) (t : τ) : Quiet (unmarshaler ty eng t) := by
  have hn := hf.name t
  have hg := hf.func .dec t
  intro st
  unfold unmarshaler
  cases eng <;> dsimp only <;> scanning

theorem neutral_notEmpty (t : τ) {x : Text} (hx : Neutral x) : Neutral (notEmptyCheck ty t x) := by
  intro st
  unfold notEmptyCheck
  split <;> scanning

theorem encField_quiet (hf : Fine ty) (cur : τ) (f : Nat) {d : Field τ} (hg : Neutral d.goName)
    (hi : Inside d.name) : Quiet (encField ty eng o cur f d) := by
  have hp : Neutral (Place.field "in".toList d.goName).text := neutral_field (neutral_plain (by decide +kernel)) hg
  have hb1 := (enc_quiet ty eng o hf cur f d.type (.field "in".toList d.goName) d.omitempty 6 true hp).1
  have hb2 := (enc_quiet ty eng o hf cur f d.type (.field "in".toList d.goName) d.omitempty 6 false hp).1
  have hc := neutral_notEmpty ty d.type hp
  have hq := neutral_quoted hi
  intro st
  unfold encField
  cases o.omitempty || d.omitempty <;> simp only [Bool.not_true, Bool.not_false, Bool.false_eq_true, if_false, if_true] <;>
    scanning

theorem receiver_neutral (hf : Fine ty) (t : τ) :
    Neutral (if o.encodePointerReceiver then '*' :: ty.name t else ty.name t) := by
  split
  · exact (hf.name t).star
  · exact hf.name t

theorem encoder_quiet (hf : Fine ty) (f : Nat) (t : τ) : Quiet (encoder ty eng o f t) := by
  have hn := receiver_neutral ty o hf t
  have hg := hf.func .enc t
  intro st
  unfold encoder
  generalize (if o.encodePointerReceiver = true then '*' :: ty.name t else ty.name t) = tname at hn
  dsimp only
  split
  · rename_i fs es hk
    have h2 : Quiet (all (fs.map (encField ty eng o t f))) := by
      refine all_quiet fun w hw => ?_
      obtain ⟨d, hd, rfl⟩ := List.mem_map.1 hw
      obtain ⟨h3, h4⟩ := hf.field t fs es hk d hd
      exact encField_quiet ty eng o hf t f h3 h4
    cases o.encodePointerReceiver <;> simp only [Bool.false_eq_true, if_false, if_true] <;> scanning
  · have ho : Neutral (Place.root "in".toList).text := neutral_plain (by decide +kernel)
    have hb1 := (enc_quiet ty eng o hf t f t (.deref (.root "in".toList)) false 6 true ho.star).1
    have hb2 := (enc_quiet ty eng o hf t f t (.root "in".toList) false 2 true ho).2
    generalize o.encodePointerReceiver = b
    cases b <;> simp only [Bool.false_eq_true, if_false, if_true] <;> scanning

theorem marshaler_quiet (hf : Fine ty) (t : τ) : Quiet (marshaler ty eng o t) := by
  have hn := receiver_neutral ty o hf t
  have hg := hf.func .enc t
  intro st
  unfold marshaler
  generalize (if o.encodePointerReceiver = true then '*' :: ty.name t else ty.name t) = tname at hn
  cases eng <;> dsimp only <;> scanning

theorem header_quiet {tags pkg : Text} {imports : List (Text × Text)} (ht : Neutral tags) (hp : Neutral pkg)
    (hi : ∀ i ∈ imports, Neutral i.1 ∧ Neutral i.2) : Quiet (header eng tags pkg imports) := by
  have h1 : Quiet (all (imports.map fun i => line ("  ".toList ++ (i.1 ++ (" ".toList ++ i.2))))) := by
    refine all_quiet fun w hw => ?_
    obtain ⟨i, h, rfl⟩ := List.mem_map.1 hw
    obtain ⟨h2, h3⟩ := hi i h
    intro st
    scanning
  have h2 : Quiet (all ((suppressors eng).map fun x => line (" _ ".toList ++ x))) := by
    refine all_quiet fun w hw => ?_
    obtain ⟨i, h, rfl⟩ := List.mem_map.1 hw
    have : Neutral i := by
      cases eng <;> simp only [suppressors, List.mem_cons, List.not_mem_nil, or_false] at h <;>
        rcases h with rfl | rfl | rfl <;> exact neutral_plain (by decide +kernel)
    intro st
    scanning
  intro st
  unfold header
  split <;> scanning

theorem file_quiet (hf : Fine ty) (hs : Safe ty eng) (f : Nat) (target : τ) (ts : List τ) {tags pkg : Text}
    {imports : List (Text × Text)} (ht : Neutral tags) (hp : Neutral pkg)
    (hi : ∀ i ∈ imports, Neutral i.1 ∧ Neutral i.2) : Quiet (file ty eng o f target ts tags pkg imports) := by
  intro st
  refine Reach.seq (header_quiet eng ht hp hi st) ((all_quiet fun w hw => ?_) st)
  obtain ⟨t, _, rfl⟩ := List.mem_map.1 hw
  have h1 := decoder_quiet ty eng o hf hs f t
  have h2 := encoder_quiet ty eng o hf f t
  have h3 := unmarshaler_quiet ty eng hf t
  have h4 := marshaler_quiet ty eng o hf t
  intro st
  unfold forType
  split <;> scanning

end

end Verif.GoText
