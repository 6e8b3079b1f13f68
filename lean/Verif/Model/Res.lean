/-!
Outcomes of Go functions whose termination is not obvious.

A recursive Go function is modelled by a Lean function with an additional argument, the fuel, which bounds the depth of
the recursion.  `timeout` says that the fuel was not sufficient, `panic` that the Go program panics.  `Conv g x` says
that the computation `g` ends with `x` for every sufficiently large fuel; a computation which is a `timeout` for every
fuel runs forever (in Go: until the stack or the memory is exhausted).
-/

namespace Verif

/-- Outcome of a computation with fuel. -/
inductive Res (α : Type) where
  | timeout
  | panic
  | ok (a : α)
deriving DecidableEq, Repr

namespace Res

variable {α β : Type}

/-- Sequencing. -/
def bind (x : Res α) (f : α → Res β) : Res β :=
  match x with
  | .timeout => .timeout
  | .panic => .panic
  | .ok a => f a

instance : Monad Res where
  pure := .ok
  bind := bind

@[simp] theorem bind_ok (a : α) (f : α → Res β) : (Res.ok a >>= f) = f a := rfl
@[simp] theorem bind_timeout (f : α → Res β) : (Res.timeout >>= f) = .timeout := rfl
@[simp] theorem bind_panic (f : α → Res β) : (Res.panic >>= f) = .panic := rfl
@[simp] theorem pure_eq (a : α) : (pure a : Res α) = .ok a := rfl
@[simp] theorem map_ok (f : α → β) (a : α) : (f <$> Res.ok a) = .ok (f a) := rfl

theorem bind_eq_ok {x : Res α} {f : α → Res β} {b : β} :
    (x >>= f) = .ok b ↔ ∃ a, x = .ok a ∧ f a = .ok b := by
  cases x <;> simp

end Res

/-- The computation ends with `x` for every sufficiently large fuel. -/
def Conv {α : Type} (g : Nat → Res α) (x : α) : Prop := ∃ f0, ∀ f, f0 ≤ f → g f = .ok x

namespace Conv

variable {α β : Type}

theorem det {g : Nat → Res α} {x y : α} (hx : Conv g x) (hy : Conv g y) : x = y := by
  obtain ⟨a, ha⟩ := hx
  obtain ⟨b, hb⟩ := hy
  have h1 := ha (max a b) (Nat.le_max_left _ _)
  have h2 := hb (max a b) (Nat.le_max_right _ _)
  rw [h1] at h2
  cases h2
  rfl

theorem pure (x : α) : Conv (fun _ => Res.ok x) x := ⟨0, fun _ _ => rfl⟩

theorem bind {g : Nat → Res α} {x : α} {h : Nat → α → Res β} {y : β} (hg : Conv g x) (hh : Conv (fun f => h f x) y) :
    Conv (fun f => g f >>= h f) y := by
  obtain ⟨a, ha⟩ := hg
  obtain ⟨b, hb⟩ := hh
  refine ⟨max a b, fun f hf => ?_⟩
  show (g f >>= h f) = .ok y
  rw [ha f (by omega)]
  exact hb f (by omega)

/-- A computation which makes one step and goes on with less fuel. -/
theorem succ {g g' : Nat → Res α} {x : α} (h : ∀ f, g (f + 1) = g' f) (hg : Conv g' x) : Conv g x := by
  obtain ⟨a, ha⟩ := hg
  refine ⟨a + 1, fun f hf => ?_⟩
  obtain ⟨f', rfl⟩ : ∃ f', f = f' + 1 := ⟨f - 1, by omega⟩
  rw [h]
  exact ha f' (by omega)

theorem congr {g g' : Nat → Res α} {x : α} (h : ∀ f, g f = g' f) (hg : Conv g' x) : Conv g x := by
  obtain ⟨a, ha⟩ := hg
  exact ⟨a, fun f hf => by rw [h, ha f hf]⟩

end Conv

/-- The computation runs forever. -/
def Diverges {α : Type} (g : Nat → Res α) : Prop := ∀ f, g f = .timeout

theorem Diverges.not_conv {α : Type} {g : Nat → Res α} (h : Diverges g) (x : α) : ¬ Conv g x := by
  rintro ⟨a, ha⟩
  have := ha a (Nat.le_refl _)
  rw [h a] at this
  cases this

end Verif
