import Verif.Model.YamlChar

/-!
Model of `engines/yayamls/token/bitmap.go` and of the memoising methods of `engines/yayamls/token/token.go`.
-/

namespace Verif.Bitmap

open Verif.YamlChar

/-- `bits.TrailingZeros16(uint16(cst))` for the charset values (16 for the value 0). -/
def trailingZeros16 (n : Nat) : Nat :=
  ((List.range 16).find? (fun k => n.testBit k)).getD 16

/-- bitmap.go:9: `conformationBitmap` is a `uint16`. -/
abbrev Bitmap := BitVec 16

/-- bitmap.go:18-30 `Get`: the first component is the value, the second tells whether there is one. -/
def get (b : Bitmap) (cst : CharSet) : Bool × Bool :=
  let shift := 2 * trailingZeros16 cst.code
  let val := (b &&& ((3 : Bitmap) <<< shift)) >>> shift
  if val = 0 ∨ val = 3 then (false, false)
  else if val = 1 then (true, true)
  else if val = 2 then (false, true)
  else (false, false)

/-- bitmap.go:32-37 `setTrue`. -/
def setTrue (b : Bitmap) (cst : CharSet) : Bitmap :=
  let shift := 2 * trailingZeros16 cst.code
  let b := b &&& ~~~((1 : Bitmap) <<< (1 + shift))
  b ||| ((1 : Bitmap) <<< shift)

/-- bitmap.go:39-44 `setFalse`. -/
def setFalse (b : Bitmap) (cst : CharSet) : Bitmap :=
  let shift := 1 + 2 * trailingZeros16 cst.code
  let b := b &&& ~~~((1 : Bitmap) <<< (shift - 1))
  b ||| ((1 : Bitmap) <<< shift)

/-- bitmap.go:11-16 `Set`. -/
def set (b : Bitmap) (cst : CharSet) (val : Bool) : Bitmap :=
  if val then setTrue b cst else setFalse b cst

/-- The parts of `token.Token` (token.go:189-195) that matter here. -/
structure MemoToken where
  origin : List Char
  map : Bitmap

/-- token.go:202-214 `ConformsCharSet` with `slowConformation`. -/
def conforms (t : MemoToken) (cst : CharSet) : Bool × MemoToken :=
  match get t.map cst with
  | (result, true) => (result, t)
  | (_, false) =>
    let result := conformsCharSet t.origin cst
    (result, { t with map := set t.map cst result })

/-- A sequence of queries on one token. -/
def queries (t : MemoToken) : List CharSet → List Bool
  | [] => []
  | c :: cs => (conforms t c).1 :: queries (conforms t c).2 cs

end Verif.Bitmap
