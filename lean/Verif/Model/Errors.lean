import Verif.Model.Decoder

/-!
Model of the errors of the package yamly (decode.go:8-19, 102-133), of both engines (engines/yayamls/decode/error.go,
engines/goyaml/decode/error.go), and of `errors.Is` and `errors.Join` of the Go library.
-/

namespace Verif.Errors

open Verif.Decoder

/-- An error.  Pointers are told apart by numbers (`id`). -/
inductive GoErr where
  /-- an error without the methods `Is` and `Unwrap`, for instance `errors.New`: decode.go:10, 16 -/
  | plain (id : Nat)
  /-- decode.go:102-104 `*denyError` -/
  | denied (id : Nat) (err : GoErr)
  /-- decode.go:13 `ErrDenied`: a nil pointer to `denyError` -/
  | deniedNil
  /-- engines/yayamls/decode/error.go:9-12, engines/goyaml/decode/error.go:7-10 `*denyError` -/
  | node (id : Nat)
  /-- engines/yayamls/decode/error.go:23-25, engines/goyaml/decode/error.go:25-27 `AliasDereferenceError`, a value -/
  | alias (name : List Char)
  /-- decode.go:122-124 `*UnknownFieldError` -/
  | field (id : Nat) (name : List Char)
  /-- an error with the method `Unwrap() error`, for instance `fmt.Errorf` with `%w`, `*strconv.NumError` -/
  | wrapped (id : Nat) (err : GoErr)
  /-- Go `errors/join.go` `*joinError` -/
  | joined (id : Nat) (errs : List GoErr)

/-- Go `==` of errors: pointers by identity, structs by their fields. -/
def same : GoErr → GoErr → Bool
  | .plain i, .plain j => i == j
  | .denied i _, .denied j _ => i == j
  | .deniedNil, .deniedNil => true
  | .node i, .node j => i == j
  | .alias n, .alias m => n == m
  | .field i _, .field j _ => i == j
  | .wrapped i _, .wrapped j _ => i == j
  | .joined i _, .joined j _ => i == j
  | _, _ => false

/-- The methods `Is`: decode.go:110-113 and 130-133, engines/yayamls/decode/error.go:18-21, engines/goyaml/decode/error.go:20-23. -/
def isMethod : GoErr → GoErr → Bool
  | .denied _ _, .denied _ _ | .denied _ _, .deniedNil | .deniedNil, .denied _ _ | .deniedNil, .deniedNil => true
  | .node _, .node _ => true
  | .field _ _, .field _ _ => true
  | _, _ => false

mutual
/-- Go `errors/wrap.go` `is`, called by `Is` for errors which are not nil. -/
def errorsIs : GoErr → GoErr → Bool
  | .wrapped i e, t => same (.wrapped i e) t || errorsIs e t
  | .joined i es, t => same (.joined i es) t || anyIs es t
  | e, t => same e t || isMethod e t

/-- The loop over the errors of `Unwrap() []error` in `is`. -/
def anyIs : List GoErr → GoErr → Bool
  | [], _ => false
  | e :: es, t => errorsIs e t || anyIs es t
end

/-- Go `errors/wrap.go` `Is`; `none` is nil. -/
def is (e : Option GoErr) (t : GoErr) : Bool :=
  match e with
  | none => false
  | some e => errorsIs e t

/-- Go `errors/join.go` `Join`: the errors which are not nil; `id` is the new pointer. -/
def join (id : Nat) (es : List (Option GoErr)) : Option GoErr :=
  match es.filterMap (fun e => e) with
  | [] => none
  | es => some (.joined id es)

/-- The errors made by other packages, and those passed to `AddError`. -/
structure Values where
  /-- `yamly.ErrEndOfStream`, decode.go:10 -/
  endOfStream : Nat
  convert : Expecter → GoErr
  any : GoErr
  raw : GoErr
  unexpected : GoErr
  custom : Nat → GoErr

/-- The errors held by readers: engines/yayamls/decode/reader.go:392, 445-448, 488-491, 530-533, 566, 619-621;
engines/goyaml/decode/reader.go:406-409, 436-439, 483, 523-525; decode.go:116-118 `DenyError`.  The numbers of the pointers to
denied values are new ones and left out. -/
def value (v : Values) : Err → GoErr
  | .deny _ => .denied 0 (.node 0)
  | .endOfStream => .plain v.endOfStream
  | .convert e => v.convert e
  | .any => v.any
  | .raw => v.raw
  | .alias n => .alias n
  | .unexpected => v.unexpected
  | .custom i => v.custom i

/-- engines/yayamls/decode/reader.go:639-641, engines/goyaml/decode/reader.go:543-545 `Error`. -/
def error (v : Values) (id : Nat) (fatal : Option Err) (denied : List Err) : Option GoErr :=
  join id (fatal.map (value v) :: denied.map (fun e => some (value v e)))

end Verif.Errors
