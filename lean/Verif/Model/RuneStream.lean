/-!
Model of `engines/yayamls/lexer/rune_stream.go`: the stream of runes over the bytes of the source.  `utf8.DecodeRune` of Go's library follows
its documentation: "If p is empty it returns (RuneError, 0).  Otherwise, if the encoding is invalid, it returns (RuneError, 1)"; an encoding is
invalid if it is incorrect UTF-8, encodes a rune that is out of range, or is not the shortest one.
-/

namespace Verif.RuneStream

/-- `utf8.RuneError`. -/
def runeError : Char := Char.ofNat 0xFFFD

/-- A byte between two bounds. -/
def within (b : UInt8) (lo hi : Nat) : Bool := lo ≤ b.toNat && b.toNat ≤ hi

/-- `utf8.DecodeRune` (rune_stream.go:26): the rune and its width.  The bounds of the second byte exclude encodings which are too long,
surrogates and numbers above 0x10FFFF. -/
def decodeRune : List UInt8 → Char × Nat
  | [] => (runeError, 0)
  | b0 :: r =>
    let x := b0.toNat
    if x < 0x80 then (Char.ofNat x, 1)
    else if x < 0xC2 then (runeError, 1)
    else if x < 0xE0 then
      match r with
      | b1 :: _ => if within b1 0x80 0xBF then (Char.ofNat ((x - 0xC0) * 64 + (b1.toNat - 0x80)), 2) else (runeError, 1)
      | [] => (runeError, 1)
    else if x < 0xF0 then
      match r with
      | b1 :: b2 :: _ =>
        if within b1 (if x = 0xE0 then 0xA0 else 0x80) (if x = 0xED then 0x9F else 0xBF) && within b2 0x80 0xBF then
          (Char.ofNat ((x - 0xE0) * 4096 + (b1.toNat - 0x80) * 64 + (b2.toNat - 0x80)), 3)
        else (runeError, 1)
      | _ => (runeError, 1)
    else if x < 0xF5 then
      match r with
      | b1 :: b2 :: b3 :: _ =>
        if within b1 (if x = 0xF0 then 0x90 else 0x80) (if x = 0xF4 then 0x8F else 0xBF) && within b2 0x80 0xBF && within b3 0x80 0xBF then
          (Char.ofNat ((x - 0xF0) * 262144 + (b1.toNat - 0x80) * 4096 + (b2.toNat - 0x80) * 64 + (b3.toNat - 0x80)), 4)
        else (runeError, 1)
      | _ => (runeError, 1)
    else (runeError, 1)

/-- rune_stream.go:10-13 `runeStream`. -/
structure Stream where
  src : List UInt8
  pos : Nat

/-- rune_stream.go:15-20 `newRuneStream`. -/
def newStream (src : List UInt8) : Stream := ⟨src, 0⟩

/-- rune_stream.go:22-29 `Next`; `none` is `EOF`. -/
def next (s : Stream) : Option Char × Stream :=
  if s.pos ≥ s.src.length then (none, s)
  else
    let (c, n) := decodeRune (s.src.drop s.pos)
    (some c, { s with pos := s.pos + n })

/-- The results of `k` calls of `Next`, and the stream afterwards. -/
def take : Nat → Stream → List (Option Char) × Stream
  | 0, s => ([], s)
  | k + 1, s =>
    let (c, s) := next s
    let (cs, s) := take k s
    (c :: cs, s)

end Verif.RuneStream
