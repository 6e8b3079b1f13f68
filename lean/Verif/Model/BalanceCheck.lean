import Verif.Model.Token

/-!
Model of `engines/yayamls/parser/internal/balancecheck/balancecheck.go`.
-/

namespace Verif.BalanceCheck

open Verif.Token

variable {T : Type} [DecidableEq T]

/-- balancecheck.go:7-12 `BalanceChecker`.

* `pairs` is the constructor argument from which the maps `openers` and `closers` are made
  (balancecheck.go:16-27).
* The slice `stack` is its backing array `cells` (every cell written so far) and its length `len`; the top of
  the stack is cell `len-1`.  Re-slicing upwards (`SetMemento`) makes old cells visible again, which is why the
  backing array is modelled.  `append` re-allocates only if `len` equals the capacity, in which case all cells
  are copied, so re-allocation is not visible. -/
structure Checker (T : Type) where
  pairs : List (T × T)
  cells : List T
  len : Nat
  bad : Bool
deriving Repr, DecidableEq

/-- the content of the slice `stack`, bottom first. -/
def Checker.stack (b : Checker T) : List T := b.cells.take b.len

/-- balancecheck.go:16-27 `NewBalanceChecker`. -/
def new (pairs : List (T × T)) : Checker T := ⟨pairs, [], 0, false⟩

/-- the map `openers` (balancecheck.go:23): a later pair overwrites an earlier one. -/
def openerOf (pairs : List (T × T)) (t : T) : Option T :=
  (pairs.reverse.find? (fun p => p.1 = t)).map Prod.snd

/-- the set `closers` (balancecheck.go:24). -/
def isCloser (pairs : List (T × T)) (t : T) : Bool := pairs.any (fun p => p.2 = t)

/-- balancecheck.go:35 `canPop`. -/
def canPop (b : Checker T) (r : T) : Bool :=
  match b.stack.getLast? with
  | none => false
  | some top => openerOf b.pairs top = some r

/-- balancecheck.go:43 `append(b.stack, r)`: overwrites the cell after the top or extends the array. -/
def pushCell (b : Checker T) (r : T) : Checker T :=
  { b with cells := b.cells.take b.len ++ r :: b.cells.drop (b.len + 1), len := b.len + 1 }

/-- balancecheck.go:29-46 `Add`. -/
def add (b : Checker T) (r : T) : Bool × Checker T :=
  if b.bad then (false, b)
  else if isCloser b.pairs r && !(openerOf b.pairs r).isSome && !canPop b r then
    (false, { b with bad := true })
  else if isCloser b.pairs r && canPop b r then
    (true, { b with len := b.len - 1 })
  else if (openerOf b.pairs r).isSome then
    (true, pushCell b r)
  else
    (true, b)

/-- balancecheck.go:48-50 `IsBalanced`. -/
def isBalanced (b : Checker T) : Bool := !b.bad && b.len == 0

/-- balancecheck.go:52-59 `PeekLastUnbalanced`. -/
def peekLastUnbalanced (b : Checker T) : Option T := b.stack.getLast?

/-- balancecheck.go:61-64 `BalanceCheckerMemento`. -/
structure Memento where
  stackSize : Nat
  bad : Bool
deriving Repr, DecidableEq

/-- balancecheck.go:66-71 `Memento`. -/
def memento (b : Checker T) : Memento := ⟨b.len, b.bad⟩

/-- balancecheck.go:73-80 `SetMemento`.  The capacity of the slice is taken to be the number of cells ever
written; a memento taken from the same checker never exceeds it. -/
def setMemento (b : Checker T) (m : Memento) : Checker T :=
  { b with len := min m.stackSize b.cells.length, bad := m.bad }

/-- balancecheck.go:82-84 `Reset` (does not clear `cannotBeBalanced`). -/
def reset (b : Checker T) : Checker T := { b with len := 0 }

/-- Feeding a sequence of token types. -/
def feed (b : Checker T) (w : List T) : Checker T := w.foldl (fun b t => (add b t).2) b

/-- parser.go:79-82 (`newParser`): the pairs the parser uses. -/
def parserPairs : List (TokType × TokType) :=
  [(.sequenceStart, .sequenceEnd), (.mappingStart, .mappingEnd)]

end Verif.BalanceCheck
