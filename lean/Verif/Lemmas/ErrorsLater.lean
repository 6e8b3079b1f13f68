import Verif.Model.Reader
import Verif.Model.GoyamlReader

/-!
What the methods of the readers do to the errors which they hold: a fatal error stays, denied values are only added.
-/

set_option linter.unusedSimpArgs false
set_option linter.unusedVariables false

namespace Verif.ErrorsLater

open Verif.Decoder

/-- The errors held by a reader: engines/yayamls/decode/reader.go:28-31, engines/goyaml/decode/reader.go:24-27. -/
structure Held where
  multi : Bool
  fatal : Option Err
  denied : List Err

/-- What may become of them. -/
structure Later (a b : Held) : Prop where
  multi : b.multi = a.multi
  fatal : ∀ e, a.fatal = some e → b.fatal = some e
  denied : ∃ ds, b.denied = a.denied ++ ds ∧ (∀ e ∈ ds, ∃ x, e = Err.deny x) ∧ (a.multi = false → ds = [])

theorem Later.refl (a : Held) : Later a a := ⟨rfl, fun _ h => h, [], by simp⟩

theorem Later.trans {a b c : Held} (h : Later a b) (h' : Later b c) : Later a c := by
  obtain ⟨ds, h1, h2, h3⟩ := h.denied
  obtain ⟨es, h4, h5, h6⟩ := h'.denied
  refine ⟨h'.multi.trans h.multi, fun e he => h'.fatal e (h.fatal e he), ds ++ es, ?_, ?_, ?_⟩
  · rw [h4, h1, List.append_assoc]
  · intro e he
    rcases List.mem_append.1 he with he | he
    · exact h2 e he
    · exact h5 e he
  · intro hm
    rw [h3 hm, h6 (h.multi.trans hm)]
    rfl

/-- The outcome, if any, has the property. -/
def Ens {α : Type} (Q : α → Prop) (x : Res α) : Prop := ∀ a, x = .ok a → Q a

section
variable {α β : Type} {Q : α → Prop} {P : β → Prop}

theorem Ens.ok {a : α} (h : Q a) : Ens Q (.ok a) := by
  rintro _ ⟨⟩
  exact h

theorem Ens.timeout : Ens Q .timeout := by rintro _ ⟨⟩
theorem Ens.panic : Ens Q .panic := by rintro _ ⟨⟩

theorem Ens.bind {x : Res β} {f : β → Res α} (h : Ens P x) (h' : ∀ b, P b → Ens Q (f b)) : Ens Q (x >>= f) := by
  intro a ha
  obtain ⟨b, h1, h2⟩ := Res.bind_eq_ok.1 ha
  exact h' b (h b h1) a h2

theorem Ens.mono {R : α → Prop} {x : Res α} (h : Ens R x) (h' : ∀ a, R a → Q a) : Ens Q x := fun a ha => h' a (h a ha)

theorem Ens.any (x : Res α) : Ens (fun _ => True) x := fun _ _ => trivial

end

/-! ### yayamls -/

namespace Y

open Verif.Reader

def held (r : Reader) : Held := ⟨r.multi, r.fatalError, r.denyErrors⟩

/-- From the errors of `r` on. -/
def From (r : Reader) (r' : Reader) : Prop := Later (held r) (held r')

theorem From.refl (r : Reader) : From r r := Later.refl _

theorem From.same {r a b : Reader} (h : From r a) (hb : held b = held a) : From r b := by
  unfold From
  rw [hb]
  exact h

theorem held_swap (p : Point) (r : Reader) : held (swap p r) = held r := by
  unfold swap
  split <;> rfl

theorem held_bindIf (b : Bool) (n : Ast.Node) (r : Reader) : held (bindIf b n r) = held r := by
  unfold bindIf
  split <;> rfl

theorem append {r a : Reader} (h : From r a) (e : Option Err) : From r (appendError e a) := by
  refine Later.trans h ?_
  unfold appendError
  by_cases h1 : (a.multi && (e.map Err.isDeny).getD false) = true
  · rw [if_pos h1]
    simp only [Bool.and_eq_true] at h1
    refine ⟨rfl, fun _ h => h, e.toList, rfl, ?_, ?_⟩
    · match e, h1 with
      | some (.deny x), _ => intro y hy; simp at hy; exact ⟨x, hy⟩
    · intro hm
      have h2 := h1.1
      simp only [held] at hm
      rw [hm] at h2
      cases h2
  · rw [if_neg h1]
    by_cases h2 : a.fatalError.isNone = true
    · rw [if_pos h2]
      refine ⟨rfl, ?_, [], by simp [held]⟩
      intro x hx
      simp only [held] at hx
      rw [hx] at h2
      cases h2
    · rw [if_neg h2]
      exact Later.refl _

theorem add {r a : Reader} (h : From r a) (e : Option Err) : From r (addError e a) := by
  refine Later.trans h ?_
  unfold addError
  by_cases h2 : a.fatalError.isNone = true
  · rw [if_pos h2]
    refine ⟨rfl, ?_, [], by simp [held]⟩
    intro x hx
    simp only [held] at hx
    rw [hx] at h2
    cases h2
  · rw [if_neg h2]
    exact Later.refl _

theorem texter {r a : Reader} (h : From r a) (lib : Generic.Lib) (n : Ast.Node) (t : List Char) :
    Ens (From r) (visitTexter lib n t a) := by
  unfold visitTexter
  split
  · exact .panic
  · rename_i point ps hr
    refine .ok ?_
    have key : From r (match (process lib a.expecter n point.result.conclusion).conclusion with
      | .consume => pop { a with last := process lib a.expecter n point.result.conclusion }
      | .match_ => { a with last := process lib a.expecter n point.result.conclusion }
      | .deny => { swap { point with result := process lib a.expecter n point.result.conclusion }
          { a with last := process lib a.expecter n point.result.conclusion } with latestDeny := some (.deny a.expecter) }
      | .cont => pop { a with last := process lib a.expecter n point.result.conclusion }
      | .unknown => appendError (some .unexpected) { a with last := process lib a.expecter n point.result.conclusion }) := by
      split
      · exact h.same rfl
      · exact h.same rfl
      · refine h.same ?_
        exact held_swap _ { a with last := process lib a.expecter n point.result.conclusion }
      · exact h.same rfl
      · refine append ?_ _
        exact h.same rfl
    simp only
    split
    · exact key.same rfl
    · exact key

theorem null {r a : Reader} (h : From r a) (lib : Generic.Lib) : Ens (From r) (visitNull lib a) := by
  unfold visitNull
  split
  · exact .panic
  · rename_i point ps hr
    refine .ok ?_
    have key : From r (match (process lib a.expecter .null point.result.conclusion).conclusion with
      | .consume => pop { a with last := process lib a.expecter .null point.result.conclusion }
      | .match_ => { a with last := process lib a.expecter .null point.result.conclusion }
      | .cont => pop { a with last := process lib a.expecter .null point.result.conclusion }
      | .deny => appendError (some (.deny a.expecter))
          (swap { point with result := process lib a.expecter .null point.result.conclusion }
          { a with last := process lib a.expecter .null point.result.conclusion })
      | .unknown => appendError (some .unexpected) { a with last := process lib a.expecter .null point.result.conclusion }) := by
      split
      · exact h.same rfl
      · exact h.same rfl
      · exact h.same rfl
      · exact append (h.same (held_swap _ { a with last := process lib a.expecter .null point.result.conclusion })) _
      · refine append ?_ _
        exact h.same rfl
    simp only
    split
    · exact key.same rfl
    · exact key

theorem visits (lib : Generic.Lib) : ∀ f : Nat,
    (∀ n r a, From r a → Ens (From r) (accept lib f n a)) ∧
    (∀ p s b r a, From r a → Ens (From r) (processComplex lib f p s b a)) ∧
    (∀ b i r a, From r a → Ens (From r) (loop lib f b i a)) ∧
    (∀ r a, From r a → Ens (From r) (visitCurrent lib f a)) := by
  intro f
  induction f with
  | zero =>
    exact ⟨fun _ _ _ _ => .timeout, fun _ _ _ _ _ _ => .timeout, fun _ _ _ _ _ => .timeout, fun _ _ _ => .timeout⟩
  | succ f ih =>
    obtain ⟨ia, ic, il, iv⟩ := ih
    refine ⟨?_, ?_, ?_, ?_⟩
    · intro n r a h
      unfold accept
      split
      · split
        · exact .panic
        · rename_i children bind _ _ point _ _
          have ho : From r (openIter children point a).2 := by
            unfold openIter
            split <;> exact h.same rfl
          exact ic _ _ _ _ _ ho
      · split
        · exact .panic
        · exact texter h _ _ _
        · refine texter ?_ _ _ _
          exact h.same rfl
        · exact texter h _ _ _
        · exact null h _
        · split
          · exact .ok (append h _)
          · exact ia _ _ _ (h.same rfl)
        · exact .ok h
    · intro p s b r a h
      unfold processComplex
      simp only
      have hs : ∀ q : Point, ∀ l : Result, From r (swap q { a with last := l }) := fun q l =>
        h.same (held_swap q { a with last := l })
      have fin : ∀ {x : Res Reader} {b : Bool} {st : Option Handle}, Ens (From r) x → Ens (From r) (x >>= fun c =>
          if b = true then Res.ok { c with extractedState := st, extractedValue := [] } else Res.ok c) := by
        intro x b st hx
        refine Ens.bind hx fun c hc => ?_
        split
        · exact .ok (hc.same rfl)
        · exact .ok hc
      split
      · refine fin (.ok ?_)
        exact (hs _ _).same rfl
      · exact fin (.ok (hs _ _))
      · refine fin (.ok ?_)
        exact (hs _ _).same rfl
      · split
        · exact .panic
        · exact fin (il _ _ _ _ (hs _ _))
      · exact fin (.ok (append (hs _ _) _))
    · intro b i r a h
      unfold loop
      split
      · split
        · rename_i n ns _
          simp only
          have hb : From r (bindIf b n { a with iters := a.iters.set i ns }) := h.same (held_bindIf b n { a with iters := a.iters.set i ns })
          split
          · exact Ens.bind (ia _ _ _ (hb.same rfl)) fun c hc => il _ _ _ _ hc
          · exact il _ _ _ _ hb
        · exact iv _ _ (h.same rfl)
      · exact .ok h
    · intro r a h
      unfold visitCurrent
      split
      · exact .ok (append h _)
      · exact .ok (append h _)
      · exact ia _ _ _ h

theorem expects {lib : Generic.Lib} {f : Nat} {e : Expecter} {r a : Reader} (h : From r a) :
    Ens (fun x => From r x.2) (expect lib f e a) := by
  unfold expect
  refine Ens.bind ((visits lib f).2.2.2 _ _ (h.same rfl)) fun b hb => ?_
  split
  · refine .ok ?_
    exact (append hb _).same rfl
  · exact .ok hb

theorem scalar {lib : Generic.Lib} {f : Nat} {e : Expecter} {conv : List Char → Option (Out Ast.Node)} {zero : Out Ast.Node}
    {r : Reader} : Ens (fun x => From r x.2) (readScalar lib f e conv zero r) := by
  unfold readScalar
  split
  · exact .ok (.refl _)
  · refine Ens.bind (expects (.refl _)) fun b hb => ?_
    obtain ⟨good, b⟩ := b
    simp only
    split
    · split
      · exact .ok hb
      · exact .ok (append hb _)
    · exact .ok hb

theorem collection {lib : Generic.Lib} {f : Nat} {e : Expecter} {r : Reader} :
    Ens (fun x => From r x.2) (readCollection lib f e r) := by
  unfold readCollection
  split
  · exact .ok (.refl _)
  · refine Ens.bind (expects (.refl _)) fun b hb => ?_
    obtain ⟨good, b⟩ := b
    simp only
    split <;> exact .ok hb

theorem steps {lib : Generic.Lib} {f : Nat} {s : Session} {c : Call} :
    Ens (fun x => From s.reader x.2.reader) (step lib f s c) := by
  have lift : ∀ {x : Res (Out Ast.Node × Reader)}, Ens (fun y => From s.reader y.2) x →
      Ens (fun y => From s.reader y.2.reader) (step.lift s x) := by
    intro x hx
    unfold step.lift
    exact Ens.bind hx fun b hb => .ok hb
  have coll : ∀ {x : Res (Option Handle × Reader)}, Ens (fun y => From s.reader y.2) x →
      Ens (fun y => From s.reader y.2.reader) (step.openColl s x) := by
    intro x hx
    unfold step.openColl
    exact Ens.bind hx fun b hb => .ok hb
  cases c with
  | tryNull =>
    refine lift ?_
    unfold tryNull
    split
    · exact .ok (.refl _)
    · refine Ens.bind ((visits lib f).2.2.2 _ _ (From.same (.refl _) rfl)) fun b hb => ?_
      split
      · exact .ok hb
      · split
        · exact .ok (hb.same rfl)
        · exact .ok hb
  | integer b => exact lift scalar
  | unsigned b => exact lift scalar
  | boolean => exact lift scalar
  | float b => exact lift scalar
  | string => exact lift scalar
  | timestamp => exact lift scalar
  | sequence => exact coll collection
  | mapping => exact coll collection
  | any =>
    refine lift ?_
    unfold readAny
    split
    · exact .ok (.refl _)
    · refine Ens.bind (expects (.refl _)) fun b hb => ?_
      obtain ⟨good, b⟩ := b
      simp only
      split
      · refine Ens.bind (Ens.any _) fun v _ => ?_
        obtain ⟨v, an⟩ := v
        simp only
        split
        · exact .ok (hb.same rfl)
        · refine .ok (append ?_ _)
          exact hb.same rfl
      · exact .ok hb
  | raw =>
    refine lift ?_
    unfold readRaw
    split
    · exact .ok (.refl _)
    · refine Ens.bind (expects (.refl _)) fun b hb => ?_
      obtain ⟨good, b⟩ := b
      simp only
      split
      · split
        · exact .panic
        · exact .ok (hb.same rfl)
        · exact .ok (append hb _)
      · exact .ok hb
  | node =>
    refine lift ?_
    unfold readNode
    split
    · exact .ok (.refl _)
    · refine Ens.bind (expects (.refl _)) fun b hb => ?_
      obtain ⟨good, b⟩ := b
      simp only
      split
      · exact .ok (hb.same rfl)
      · exact .ok hb
  | skip =>
    refine lift ?_
    unfold readSkip
    split
    · exact .ok (.refl _)
    · exact Ens.bind (expects (.refl _)) fun b hb => .ok hb
  | addError e => exact .ok (add (.refl _) _)
  | error => exact .ok (.refl _)
  | hasItems k =>
    simp only [step]
    split
    · exact .panic
    · exact .ok (.refl _)
    · exact .ok (.refl _)
  | size k =>
    simp only [step]
    split
    · exact .panic
    · exact .ok (.refl _)
    · exact .ok (.refl _)

theorem runs {lib : Generic.Lib} {f : Nat} {cs : List Call} : ∀ {s s' : Session} {os : List (Out Ast.Node)},
    run lib f s cs = .ok (os, s') → From s.reader s'.reader := by
  induction cs with
  | nil => rintro s s' os ⟨⟩; exact .refl _
  | cons c cs ih =>
    intro s s' os h
    unfold run at h
    obtain ⟨⟨o, s1⟩, h1, h2⟩ := Res.bind_eq_ok.1 h
    obtain ⟨⟨os', s2⟩, h3, h4⟩ := Res.bind_eq_ok.1 h2
    cases h4
    exact Later.trans (steps _ h1) (ih h3)

end Y

/-! ### goyaml -/

namespace G

open Verif.GoyamlReader

def held (r : Reader) : Held := ⟨r.multi, r.fatalError, r.denyErrors⟩

/-- From the errors of `r` on. -/
def From (r : Reader) (r' : Reader) : Prop := Later (held r) (held r')

theorem From.refl (r : Reader) : From r r := Later.refl _

theorem From.same {r a b : Reader} (h : From r a) (hb : held b = held a) : From r b := by
  unfold From
  rw [hb]
  exact h

theorem held_swap (p : Point) (r : Reader) : held (swap p r) = held r := by
  unfold swap
  split <;> rfl

theorem held_setFatal (e : Option Err) (r : Reader) : held (setFatal e r) = ⟨r.multi, e, r.denyErrors⟩ := rfl

theorem append {r a : Reader} (h : From r a) (e : Option Err) : From r (appendError e a) := by
  refine Later.trans h ?_
  unfold appendError
  by_cases h1 : (a.multi && (e.map Err.isDeny).getD false) = true
  · rw [if_pos h1]
    simp only [Bool.and_eq_true] at h1
    refine ⟨rfl, fun _ h => h, e.toList, rfl, ?_, ?_⟩
    · match e, h1 with
      | some (.deny x), _ => intro y hy; simp at hy; exact ⟨x, hy⟩
    · intro hm
      have h2 := h1.1
      simp only [held] at hm
      rw [hm] at h2
      cases h2
  · rw [if_neg h1]
    by_cases h2 : a.fatalError.isNone = true
    · rw [if_pos h2]
      rw [held_setFatal]
      refine ⟨rfl, ?_, [], by simp [held, setFatal]⟩
      intro x hx
      simp only [held] at hx
      rw [hx] at h2
      cases h2
    · rw [if_neg h2]
      exact Later.refl _

theorem add {r a : Reader} (h : From r a) (e : Option Err) : From r (addError e a) := by
  refine Later.trans h ?_
  unfold addError
  by_cases h2 : a.fatalError.isNone = true
  · rw [if_pos h2]
    refine ⟨rfl, ?_, [], by simp [held, setFatal]⟩
    intro x hx
    simp only [held] at hx
    rw [hx] at h2
    cases h2
  · rw [if_neg h2]
    exact Later.refl _

theorem texter {r a : Reader} (h : From r a) (lib : RLib) (n : Nat) :
    Ens (From r) (visitScalar lib n a) := by
  unfold visitScalar
  split
  · exact .panic
  · rename_i point ps hr
    refine .ok ?_
    have key : From r (match (process lib a.expecter (a.heap n) point.result.conclusion).conclusion with
      | .consume => pop { a with last := process lib a.expecter (a.heap n) point.result.conclusion }
      | .match_ => { a with last := process lib a.expecter (a.heap n) point.result.conclusion }
      | .deny => { swap { point with result := process lib a.expecter (a.heap n) point.result.conclusion }
          { a with last := process lib a.expecter (a.heap n) point.result.conclusion } with latestDeny := some (.deny a.expecter) }
      | .cont => pop { a with last := process lib a.expecter (a.heap n) point.result.conclusion }
      | .unknown => appendError (some .unexpected) { a with last := process lib a.expecter (a.heap n) point.result.conclusion }) := by
      split
      · exact h.same rfl
      · exact h.same rfl
      · refine h.same ?_
        exact held_swap _ { a with last := process lib a.expecter (a.heap n) point.result.conclusion }
      · exact h.same rfl
      · refine append ?_ _
        exact h.same rfl
    simp only
    split
    · exact key.same rfl
    · exact key

theorem visits (lib : RLib) : ∀ f : Nat,
    (∀ n r a, From r a → Ens (From r) (visitNode lib f n a)) ∧
    (∀ p s r a, From r a → Ens (From r) (processComplex lib f p s a)) ∧
    (∀ i r a, From r a → Ens (From r) (loop lib f i a)) ∧
    (∀ r a, From r a → Ens (From r) (visitCurrent lib f a)) := by
  intro f
  induction f with
  | zero =>
    exact ⟨fun _ _ _ _ => .timeout, fun _ _ _ _ _ => .timeout, fun _ _ _ _ => .timeout, fun _ _ _ => .timeout⟩
  | succ f ih =>
    obtain ⟨ia, ic, il, iv⟩ := ih
    refine ⟨?_, ?_, ?_, ?_⟩
    · intro n r a h
      have hc : Ens (From r) (match a.route with
          | [] => Res.panic
          | point :: _ =>
            let (point, r) := openIter n point a
            processComplex lib f point (r.heap n).content.length r) := by
        split
        · exact .panic
        · rename_i point _ _
          have ho : From r (openIter n point a).2 := by
            unfold openIter
            split <;> exact h.same rfl
          exact ic _ _ _ _ ho
      unfold visitNode
      split
      · split
        · exact .panic
        · exact ia _ _ _ h
      · exact hc
      · exact hc
      · exact texter h _ _
      · split
        · exact .panic
        · refine ia _ _ _ ?_
          exact h.same rfl
      · exact .ok h
    · intro p s r a h
      unfold processComplex
      simp only
      have hs : ∀ q : Point, ∀ l : Result, From r (swap q { a with last := l }) := fun q l =>
        h.same (held_swap q { a with last := l })
      have fin : ∀ {x : Res Reader} {b : Bool} {st : Option Handle}, Ens (From r) x → Ens (From r) (x >>= fun c =>
          if b = true then Res.ok { c with extractedState := st, extractedValue := [] } else Res.ok c) := by
        intro x b st hx
        refine Ens.bind hx fun c hc => ?_
        split
        · exact .ok (hc.same rfl)
        · exact .ok hc
      split
      · refine fin (.ok ?_)
        exact (hs _ _).same rfl
      · exact fin (.ok (hs _ _))
      · refine fin (.ok ?_)
        exact (hs _ _).same rfl
      · split
        · exact .panic
        · exact fin (il _ _ _ (hs _ _))
      · exact fin (.ok (append (hs _ _) _))
    · intro i r a h
      unfold loop
      split
      · split
        · refine Ens.bind (P := From r) (ia _ _ _ ?_) fun c hc => il _ _ _ hc
          exact h.same rfl
        · refine iv _ _ ?_
          exact h.same rfl
      · exact .ok h
    · intro r a h
      unfold visitCurrent
      split
      · exact .ok (append h _)
      · exact ia _ _ _ h

theorem expects {lib : RLib} {f : Nat} {e : Expecter} {r a : Reader} (h : From r a) :
    Ens (fun x => From r x.2) (expect lib f e a) := by
  unfold expect
  refine Ens.bind ((visits lib f).2.2.2 _ _ (h.same rfl)) fun b hb => ?_
  split
  · refine .ok ?_
    exact (append hb _).same rfl
  · exact .ok hb

theorem scalar {lib : RLib} {f : Nat} {e : Expecter} {conv : List Char → Option (Out Nat)} {zero : Out Nat}
    {r : Reader} : Ens (fun x => From r x.2) (readScalar lib f e conv zero r) := by
  unfold readScalar
  split
  · exact .ok (.refl _)
  · refine Ens.bind (expects (.refl _)) fun b hb => ?_
    obtain ⟨good, b⟩ := b
    simp only
    split
    · split
      · exact .ok hb
      · exact .ok (append hb _)
    · exact .ok hb

theorem collection {lib : RLib} {f : Nat} {e : Expecter} {r : Reader} :
    Ens (fun x => From r x.2) (readCollection lib f e r) := by
  unfold readCollection
  split
  · exact .ok (.refl _)
  · refine Ens.bind (expects (.refl _)) fun b hb => ?_
    obtain ⟨good, b⟩ := b
    simp only
    split <;> exact .ok hb

theorem steps {lib : RLib} {f : Nat} {s : Session} {c : Call} :
    Ens (fun x => From s.reader x.2.reader) (step lib f s c) := by
  have lift : ∀ {x : Res (Out Nat × Reader)}, Ens (fun y => From s.reader y.2) x →
      Ens (fun y => From s.reader y.2.reader) (step.lift s x) := by
    intro x hx
    unfold step.lift
    exact Ens.bind hx fun b hb => .ok hb
  have coll : ∀ {x : Res (Option Handle × Reader)}, Ens (fun y => From s.reader y.2) x →
      Ens (fun y => From s.reader y.2.reader) (step.openColl s x) := by
    intro x hx
    unfold step.openColl
    exact Ens.bind hx fun b hb => .ok hb
  cases c with
  | tryNull =>
    refine lift ?_
    unfold tryNull
    split
    · exact .ok (.refl _)
    · refine Ens.bind ((visits lib f).2.2.2 _ _ (From.same (.refl _) rfl)) fun b hb => ?_
      split
      · exact .ok hb
      · split
        · exact .ok (hb.same rfl)
        · exact .ok hb
  | integer b => exact lift scalar
  | unsigned b => exact lift scalar
  | boolean => exact lift scalar
  | float b => exact lift scalar
  | string => exact lift scalar
  | timestamp => exact lift scalar
  | sequence => exact coll collection
  | mapping => exact coll collection
  | any =>
    refine lift ?_
    unfold readAny
    split
    · exact .ok (.refl _)
    · refine Ens.bind (expects (.refl _)) fun b hb => ?_
      obtain ⟨good, b⟩ := b
      simp only
      split
      · split
        · exact .ok (hb.same rfl)
        · refine Ens.bind (Ens.any _) fun v _ => ?_
          split
          · exact .ok (hb.same rfl)
          · exact .ok (append hb _)
      · exact .ok hb
  | raw =>
    refine lift ?_
    unfold readRaw
    split
    · exact .ok (.refl _)
    · refine Ens.bind (expects (.refl _)) fun b hb => ?_
      obtain ⟨good, b⟩ := b
      simp only
      split
      · split
        · exact .panic
        · refine Ens.bind (Ens.any _) fun v _ => ?_
          obtain ⟨⟨m, seen⟩, heap⟩ := v
          simp only
          split
          · exact .ok (hb.same rfl)
          · refine .ok (append ?_ _)
            exact hb.same rfl
      · exact .ok hb
  | node =>
    refine lift ?_
    unfold readNode
    split
    · exact .ok (.refl _)
    · refine Ens.bind (expects (.refl _)) fun b hb => ?_
      obtain ⟨good, b⟩ := b
      simp only
      split
      · exact .ok (hb.same rfl)
      · exact .ok hb
  | skip =>
    refine lift ?_
    unfold readSkip
    split
    · exact .ok (.refl _)
    · exact Ens.bind (expects (.refl _)) fun b hb => .ok hb
  | addError e => exact .ok (add (.refl _) _)
  | error => exact .ok (.refl _)
  | hasItems k =>
    simp only [step]
    split
    · exact .panic
    · exact .ok (.refl _)
    · exact .ok (.refl _)
  | size k =>
    simp only [step]
    split
    · exact .panic
    · exact .ok (.refl _)
    · exact .ok (.refl _)

theorem runs {lib : RLib} {f : Nat} {cs : List Call} : ∀ {s s' : Session} {os : List (Out Nat)},
    run lib f s cs = .ok (os, s') → From s.reader s'.reader := by
  induction cs with
  | nil => rintro s s' os ⟨⟩; exact .refl _
  | cons c cs ih =>
    intro s s' os h
    unfold run at h
    obtain ⟨⟨o, s1⟩, h1, h2⟩ := Res.bind_eq_ok.1 h
    obtain ⟨⟨os', s2⟩, h3, h4⟩ := Res.bind_eq_ok.1 h2
    cases h4
    exact Later.trans (steps _ h1) (ih h3)

end G

end Verif.ErrorsLater
