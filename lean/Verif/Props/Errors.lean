import Verif.Model.Errors
import Verif.Lemmas.ErrorsLater

/-!
C78: errors are kept and recognised, decode.go and the readers of both engines.
-/

namespace Verif.Props.Errors

open Verif.Decoder Verif.Errors Verif.ErrorsLater

/-! ### `errors.Is` -/

theorem anyIs_iff (es : List GoErr) (t : GoErr) : anyIs es t = true ↔ ∃ e ∈ es, errorsIs e t = true := by
  induction es with
  | nil => simp [anyIs]
  | cons e es ih => simp [anyIs, ih]

/-- C78: an error in a join is found in it. -/
theorem found_in_join {i : Nat} {es : List GoErr} {e t : GoErr} (he : e ∈ es) (h : errorsIs e t = true) :
    errorsIs (.joined i es) t = true := by
  simp only [errorsIs, Bool.or_eq_true]
  exact .inr ((anyIs_iff es t).2 ⟨e, he, h⟩)

/-- An error which stands for a kind of errors: not the result of a join or of wrapping. -/
def Target : GoErr → Prop
  | .joined _ _ | .wrapped _ _ => False
  | _ => True

/-- C78: nothing else is found in a join. -/
theorem join_iff {i : Nat} {es : List GoErr} {t : GoErr} (ht : Target t) :
    errorsIs (.joined i es) t = true ↔ ∃ e ∈ es, errorsIs e t = true := by
  have : same (.joined i es) t = false := by cases t <;> first | rfl | exact ht.elim
  simp only [errorsIs, this, Bool.false_or]
  exact anyIs_iff es t

/-- C78: fields which are not known are recognised whatever their names are. -/
theorem unknown_field (i j : Nat) (n m : List Char) : errorsIs (.field i n) (.field j m) = true := by
  simp [errorsIs, isMethod]

/-- C78: what `DenyError` makes is `ErrDenied`, and the error in it is found no more. -/
theorem denied_iff (i : Nat) (e t : GoErr) :
    errorsIs (.denied i e) t = true ↔ t = .deniedNil ∨ ∃ j e', t = .denied j e' := by
  cases t <;> simp [errorsIs, same, isMethod]

/-! ### Errors of readers -/

theorem error_is {v : Values} {id : Nat} {fatal : Option Err} {denied : List Err} {t : GoErr} (ht : Target t) :
    is (error v id fatal denied) t = true ↔ ∃ e, (fatal = some e ∨ e ∈ denied) ∧ errorsIs (value v e) t = true := by
  have hl : (fatal.map (value v) :: denied.map (fun e => some (value v e))).filterMap (fun e => e) =
      (fatal.toList ++ denied).map (value v) := by
    have : ∀ l : List Err, (l.map (fun e => some (value v e))).filterMap (fun e => e) = l.map (value v) := by
      intro l
      induction l with
      | nil => rfl
      | cons a l ih => simp [ih]
    cases fatal with
    | none => simpa using this denied
    | some e => simpa using this denied
  have key : is (error v id fatal denied) t = true ↔ ∃ e ∈ (fatal.toList ++ denied).map (value v), errorsIs e t = true := by
    unfold error join
    rw [hl]
    cases hes : (fatal.toList ++ denied).map (value v) with
    | nil => simp [is]
    | cons e es => exact join_iff ht
  rw [key]
  simp only [List.mem_map, List.mem_append, Option.mem_toList]
  constructor
  · rintro ⟨_, ⟨e, he, rfl⟩, h⟩
    exact ⟨e, he, h⟩
  · rintro ⟨e, he, h⟩
    exact ⟨_, ⟨e, he, rfl⟩, h⟩

/-- C78: there is no error if and only if none is held. -/
theorem error_nil_iff (v : Values) (id : Nat) (fatal : Option Err) (denied : List Err) :
    error v id fatal denied = none ↔ fatal = none ∧ denied = [] := by
  unfold error join
  cases fatal <;> cases denied <;> simp

/-- What other packages return is neither a denied value nor the end of the stream. -/
structure Foreign (v : Values) : Prop where
  convert : ∀ e, errorsIs (v.convert e) .deniedNil = false ∧ errorsIs (v.convert e) (.plain v.endOfStream) = false
  any : errorsIs v.any .deniedNil = false ∧ errorsIs v.any (.plain v.endOfStream) = false
  raw : errorsIs v.raw .deniedNil = false ∧ errorsIs v.raw (.plain v.endOfStream) = false
  unexpected : errorsIs v.unexpected .deniedNil = false ∧ errorsIs v.unexpected (.plain v.endOfStream) = false

/-- A state of the errors which a reader can reach. -/
def Reached (b : Held) : Prop := (∀ e ∈ b.denied, ∃ x, e = Err.deny x) ∧ (b.multi = false → b.denied = [])

/-- The errors of a reader are recognised. -/
structure Recognised (v : Values) (id : Nat) (b : Held) : Prop where
  /-- denied values -/
  denied : is (error v id b.fatal b.denied) .deniedNil = true ↔
    b.denied ≠ [] ∨ (∃ x, b.fatal = some (.deny x)) ∨ ∃ i, b.fatal = some (.custom i) ∧ errorsIs (v.custom i) .deniedNil = true
  /-- the end of the document -/
  ended : is (error v id b.fatal b.denied) (.plain v.endOfStream) = true ↔
    b.fatal = some .endOfStream ∨
      ∃ i, b.fatal = some (.custom i) ∧ errorsIs (v.custom i) (.plain v.endOfStream) = true
  /-- errors added, at any depth of decoders called by decoders -/
  added : ∀ i t, b.fatal = some (.custom i) → Target t → errorsIs (v.custom i) t = true →
    is (error v id b.fatal b.denied) t = true
  /-- no error -/
  nothing : error v id b.fatal b.denied = none ↔ b.fatal = none ∧ b.denied = []

theorem recognised {v : Values} (hv : Foreign v) (id : Nat) {b : Held} (hb : Reached b) : Recognised v id b where
  denied := by
    rw [error_is (by trivial)]
    constructor
    · rintro ⟨e, he | he, h⟩
      · refine .inr ?_
        match e, he, h with
        | .deny x, he, _ => exact .inl ⟨x, he⟩
        | .endOfStream, _, h => simp [value, errorsIs, same, isMethod] at h
        | .convert x, _, h => simp [value, (hv.convert x).1] at h
        | .any, _, h => simp [value, hv.any.1] at h
        | .raw, _, h => simp [value, hv.raw.1] at h
        | .alias n, _, h => simp [value, errorsIs, same, isMethod] at h
        | .unexpected, _, h => simp [value, hv.unexpected.1] at h
        | .custom i, he, h => exact .inr ⟨i, he, h⟩
      · exact .inl (List.ne_nil_of_mem he)
    · rintro (h | ⟨x, h⟩ | ⟨i, h, h'⟩)
      · obtain ⟨e, es, he⟩ := List.exists_cons_of_ne_nil h
        have hm : e ∈ b.denied := by rw [he]; exact List.mem_cons_self
        obtain ⟨x, rfl⟩ := hb.1 e hm
        exact ⟨_, .inr hm, by simp [value, errorsIs, isMethod]⟩
      · exact ⟨_, .inl h, by simp [value, errorsIs, isMethod]⟩
      · exact ⟨_, .inl h, h'⟩
  ended := by
    rw [error_is (by trivial)]
    constructor
    · rintro ⟨e, he | he, h⟩
      · match e, he, h with
        | .deny x, _, h => simp [value, errorsIs, same, isMethod] at h
        | .endOfStream, he, _ => exact .inl he
        | .convert x, _, h => simp [value, (hv.convert x).2] at h
        | .any, _, h => simp [value, hv.any.2] at h
        | .raw, _, h => simp [value, hv.raw.2] at h
        | .alias n, _, h => simp [value, errorsIs, same, isMethod] at h
        | .unexpected, _, h => simp [value, hv.unexpected.2] at h
        | .custom i, he, h => exact .inr ⟨i, he, h⟩
      · obtain ⟨x, rfl⟩ := hb.1 e he
        simp [value, errorsIs, same, isMethod] at h
    · rintro (h | ⟨i, h, h'⟩)
      · exact ⟨_, .inl h, by simp [value, errorsIs, same]⟩
      · exact ⟨_, .inl h, h'⟩
  added i t hf ht h := (error_is ht).2 ⟨_, .inl hf, h⟩
  nothing := error_nil_iff v id b.fatal b.denied

theorem reached_of_later {m : Bool} {b : Held} (h : Later ⟨m, none, []⟩ b) : Reached b := by
  obtain ⟨ds, h1, h2, h3⟩ := h.denied
  simp only [List.nil_append] at h1
  exact ⟨by rw [h1]; exact h2, fun hm => by rw [h1]; exact h3 (h.multi.symm.trans hm)⟩

/-- C78 (yayamls): whatever the document is and whatever is called, the errors of the reader are recognised; without multiple errors
no list of denied values is kept. -/
theorem recognised_yayamls {v : Values} (hv : Foreign v) (id : Nat) {lib : Generic.Lib} {f : Nat} {multi : Bool} {tree : Ast.Node}
    {cs : List Call} {os : List (Out Ast.Node)} {s : Reader.Session}
    (h : Reader.run lib f { reader := Reader.newReader multi tree } cs = .ok (os, s)) :
    Recognised v id (Y.held s.reader) ∧ (multi = false → s.reader.denyErrors = []) := by
  have hl : Later ⟨multi, none, []⟩ (Y.held s.reader) := Y.runs h
  exact ⟨recognised hv id (reached_of_later hl), fun hm => (reached_of_later hl).2 (hl.multi.trans hm)⟩

/-- C78 (goyaml): as `recognised_yayamls`. -/
theorem recognised_goyaml {v : Values} (hv : Foreign v) (id : Nat) {lib : GoyamlReader.RLib} {f : Nat}
    {heap : Goyaml.Heap} {multi : Bool} {tree : Nat} {r : GoyamlReader.Reader}
    (hr : GoyamlReader.newReader heap multi tree = .ok r) {cs : List Call} {os : List (Out Nat)} {s : GoyamlReader.Session}
    (h : GoyamlReader.run lib f { reader := r } cs = .ok (os, s)) :
    Recognised v id (G.held s.reader) ∧ (multi = false → s.reader.denyErrors = []) := by
  have h0 : G.held r = ⟨multi, none, []⟩ := by
    unfold GoyamlReader.newReader at hr
    split at hr
    · split at hr <;> cases hr
      rfl
    · cases hr
      rfl
  have hl : Later ⟨multi, none, []⟩ (G.held s.reader) := h0 ▸ G.runs h
  exact ⟨recognised hv id (reached_of_later hl), fun hm => (reached_of_later hl).2 (hl.multi.trans hm)⟩

/-- C78 (yayamls): errors are never lost: what is found in the error now is found in the error after any further calls. -/
theorem kept_yayamls (v : Values) (id id' : Nat) {lib : Generic.Lib} {f : Nat} {cs : List Call} {os : List (Out Ast.Node)}
    {s s' : Reader.Session} (h : Reader.run lib f s cs = .ok (os, s')) {t : GoErr} (ht : Target t)
    (hi : is (error v id s.reader.fatalError s.reader.denyErrors) t = true) :
    is (error v id' s'.reader.fatalError s'.reader.denyErrors) t = true := by
  obtain ⟨_, hf, ds, hd, _⟩ := Y.runs h
  simp only [Y.held] at hf hd
  obtain ⟨e, he, h'⟩ := (error_is ht).1 hi
  refine (error_is ht).2 ⟨e, he.imp (hf e) (fun he => ?_), h'⟩
  rw [hd]
  exact List.mem_append_left _ he

/-- C78 (goyaml): as `kept_yayamls`. -/
theorem kept_goyaml (v : Values) (id id' : Nat) {lib : GoyamlReader.RLib} {f : Nat} {cs : List Call} {os : List (Out Nat)}
    {s s' : GoyamlReader.Session} (h : GoyamlReader.run lib f s cs = .ok (os, s')) {t : GoErr} (ht : Target t)
    (hi : is (error v id s.reader.fatalError s.reader.denyErrors) t = true) :
    is (error v id' s'.reader.fatalError s'.reader.denyErrors) t = true := by
  obtain ⟨_, hf, ds, hd, _⟩ := G.runs h
  simp only [G.held] at hf hd
  obtain ⟨e, he, h'⟩ := (error_is ht).1 hi
  refine (error_is ht).2 ⟨e, he.imp (hf e) (fun he => ?_), h'⟩
  rw [hd]
  exact List.mem_append_left _ he

/-- C78: the error of a decoder which is passed to another one by `AddError`, its first error, is recognised there, and so on at any
depth. -/
theorem nested {v : Values} (id : Nat) {inner : GoErr} {i : Nat} (hi : v.custom i = inner) {t : GoErr} (ht : Target t)
    (h : errorsIs inner t = true) (denied : List Err) : is (error v id (some (.custom i)) denied) t = true :=
  (error_is ht).2 ⟨_, .inl rfl, by rw [value, hi]; exact h⟩

/-! ### Examples -/

/-- Errors of conversions are those of `strconv`; the errors passed to `AddError` are a field which is not known, and the
error of another decoder. -/
def values : Values where
  endOfStream := 1
  convert _ := .wrapped 7 (.plain 2)
  any := .joined 8 [.plain 3]
  raw := .plain 4
  unexpected := .plain 5
  custom
    | 0 => .field 9 "x".toList
    | _ => .joined 10 [.denied 11 (.node 12)]

example : Foreign values := by
  refine ⟨fun e => ⟨?_, ?_⟩, ⟨?_, ?_⟩, ⟨?_, ?_⟩, ⟨?_, ?_⟩⟩ <;> simp [values, errorsIs, anyIs, same, isMethod]

/-- Two values are denied, and the document ends. -/
def history : Res (List (Out Ast.Node) × Reader.Session) :=
  Reader.run ⟨fun _ => false, fun _ _ => true, fun _ => []⟩ 9 { reader := Reader.newReader true (.text "a".toList .double) }
    [.integer 64, .sequence, .string, .string]

/-- The errors held in the end. -/
def heldIn : Res (List (Out Ast.Node) × Reader.Session) → Option (Option Err × List Err)
  | .ok (_, s) => some (s.reader.fatalError, s.reader.denyErrors)
  | _ => none

example : heldIn history = some (some .endOfStream, [.deny .integer, .deny .sequence]) := by decide +kernel

/-- The error is a denied value and the end of the stream, and no field which is not known. -/
example : is (error values 0 (some .endOfStream) [.deny .integer, .deny .sequence]) .deniedNil = true ∧
    is (error values 0 (some .endOfStream) [.deny .integer, .deny .sequence]) (.plain 1) = true ∧
    is (error values 0 (some .endOfStream) [.deny .integer, .deny .sequence]) (.field 0 []) = false := by
  simp [error, join, value, values, is, errorsIs, anyIs, same, isMethod]

/-- An alias of a text in the engine goyaml, with another error in the end. -/
def history' : Res (List (Out Nat) × GoyamlReader.Session) :=
  GoyamlReader.run
    { isTimestamp := fun _ => false, toFloat := fun _ _ => true, sprint := fun _ => [], nullTag := fun _ => false,
      marshal := fun _ _ => some [] } 9
    { reader :=
        { heap := fun a => if a = 0 then { kind := .alias, alias := some 1 } else { kind := .scalar, value := ['a'] }, multi := true,
          route := [{ node := 0 }] } }
    [.integer 64, .addError (some 0), .addError (some 1)]

example : (match history' with
    | .ok (_, s) => some (s.reader.fatalError, s.reader.denyErrors)
    | _ => none) = some (some (.custom 0), [.deny .integer]) := by decide +kernel

end Verif.Props.Errors
