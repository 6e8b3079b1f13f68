import Verif.Lemmas.GenCode
import Verif.Spec.Meaning

/-!
Generated decoders give documents the meaning of `Verif.Spec.Meaning`.
-/

set_option linter.unusedSectionVars false
set_option linter.unusedSimpArgs false

namespace Verif.GenCode

open Verif.Decoder Verif.DecoderCursor

variable {σ N : Type} {E : Engine σ N} {V : View N} {R : σ → Cursor N → Prop} {M : Rules} {L : Lib} {P : Package}

/-! ### Nodes and documents -/

/-- The node leads to the value `m`. -/
def Lands (V : View N) (n m : N) : Prop := ∀ e, plain e → Core V e n m

mutual
/-- The node leads to a value which is the document. -/
inductive Displays (V : View N) : Doc → N → Prop
  | mk {d n m} : Lands V n m → Is V d m → Displays V d n
/-- The node is the document. -/
inductive Is (V : View N) : Doc → N → Prop
  | null {n} : V.verdict .null n = .whole → Is V .null n
  | scalar {n} : V.verdict .null n = .deny → V.verdict .string n = .whole →
      (Schema.isInteger (V.text n) = true → V.verdict .integer n = .whole) →
      (Schema.isBoolean (V.text n) = true → V.verdict .boolean n = .whole) →
      (Schema.isFloat (V.text n) = true → V.verdict .float n = .whole) → Is V (.scalar (V.text n)) n
  | seq {ds n} : V.verdict .null n = .deny → V.verdict .sequence n = .opens → DisplaysItems V ds (V.items n) → Is V (.seq ds) n
  | map {es n} : V.verdict .null n = .deny → V.verdict .mapping n = .opens → (V.size n = 0 ↔ V.items n = []) →
      DisplaysEntries V es (V.items n) → Is V (.map es) n
/-- Elements. -/
inductive DisplaysItems (V : View N) : List Doc → List N → Prop
  | nil : DisplaysItems V [] []
  | cons {d ds n ns} : Displays V d n → DisplaysItems V ds ns → DisplaysItems V (d :: ds) (n :: ns)
/-- Entries: keys and values one after the other, or in a node for the entry. -/
inductive DisplaysEntries (V : View N) : List (Doc × Doc) → List N → Prop
  | nil : DisplaysEntries V [] []
  | two {k v es a b ns} : Displays V k a → Displays V v b → DisplaysEntries V es ns →
      DisplaysEntries V ((k, v) :: es) (a :: b :: ns)
  | entry {k v es n a b ns} : (∀ e, plain e → V.layer e n = some [a, b]) → Displays V k a → Displays V v b →
      DisplaysEntries V es ns → DisplaysEntries V ((k, v) :: es) (n :: ns)
end

theorem Is.solid {d : Doc} {n : N} (h : Is V d n) (hd : d ≠ .null) : V.verdict .null n = .deny := by
  cases h with
  | null => exact absurd rfl hd
  | scalar h _ _ _ _ => exact h
  | seq h _ _ => exact h
  | map h _ _ _ => exact h

/-! ### Single calls -/

/-- The next value is `n`, and `rest` is left then, up to exhausted lists. -/
structure Near (V : View N) (c : Cursor N) (k : Nat) (n : N) (rest : List (Frame N)) : Prop where
  fatal : c.fatal = none
  sizes : c.sizes.length = k
  current : ∀ e, plain e → ∃ j, Empties k j ∧ Current V e c (some (n, V.items n, j ++ rest))

section Blocks

variable {s : σ} {c : Cursor N} {k : Nat} {n : N} {rest : List (Frame N)}

theorem near_leaf (hE : Refines E V R) (hs : R s c) (ha : Near V c k n rest) {call : Call} {e : Expecter} {o : Out N}
    (he : expecterOf call = some e) (hp : plain e) (hop : opening call = false) (hv : V.verdict e n = .whole)
    (ho : valueOf V n call = .ok o) :
    ∃ s' c', Conv (fun f => E.step f s call) (o, s') ∧ R s' c' ∧ Ready c' k k rest ∧ c'.denied = c.denied := by
  obtain ⟨j, hj, hcur⟩ := ha.current e hp
  have hst := Step.read (V := V) he ha.fatal hcur
  simp only [react, hv, ho] at hst
  obtain ⟨s', h1, h2⟩ := hE _ _ _ _ _ hs hst
  refine ⟨s', _, h1, h2, ⟨ha.fatal, rfl, ?_, j, hj, rfl⟩, rfl⟩
  simpa [addSize, hop] using ha.sizes

theorem near_null (hE : Refines E V R) (hs : R s c) (ha : Near V c k n rest) (hv : V.verdict .null n = .whole) :
    ∃ s' c', Conv (fun f => E.step f s .tryNull) (.bool true, s') ∧ R s' c' ∧ Ready c' k k rest ∧
      c'.denied = c.denied :=
  near_leaf hE hs ha (call := .tryNull) rfl plain_null rfl hv rfl

theorem near_probe (hE : Refines E V R) (hs : R s c) (ha : Near V c k n rest) (hv : V.verdict .null n = .deny) :
    ∃ s' c', Conv (fun f => E.step f s .tryNull) (.bool false, s') ∧ R s' c' ∧ Near V c' k n rest ∧
      c'.denied = c.denied ∧ ∃ j, Empties k j ∧ ∀ e, Current V e c' (some (n, V.items n, j ++ rest)) := by
  obtain ⟨j, hj, hcur⟩ := ha.current .null plain_null
  have hst := Step.read (V := V) (call := .tryNull) rfl ha.fatal hcur
  simp only [react, hv, if_true] at hst
  obtain ⟨s', h1, h2⟩ := hE _ _ _ _ _ hs hst
  exact ⟨s', _, h1, h2, ⟨ha.fatal, ha.sizes, fun e _ => ⟨j, hj, .pending rfl⟩⟩, rfl, j, hj, fun e => .pending rfl⟩

/-- A value which is skipped after a probe. -/
theorem near_skip (hE : Refines E V R) (hskip : ∀ n, V.verdict .skip n = .whole) (hs : R s c) (ha : Near V c k n rest)
    {j : List (Frame N)} (hj : Empties k j) (hcur : ∀ e, Current V e c (some (n, V.items n, j ++ rest))) :
    ∃ o s' c', Conv (fun f => E.step f s .skip) (o, s') ∧ R s' c' ∧ Ready c' k k rest ∧ c'.denied = c.denied := by
  have hst := Step.read (V := V) (call := .skip) rfl ha.fatal (hcur .skip)
  simp only [react, hskip, valueOf] at hst
  obtain ⟨s', h1, h2⟩ := hE _ _ _ _ _ hs hst
  refine ⟨_, s', _, h1, h2, ⟨ha.fatal, rfl, ?_, j, hj, rfl⟩, rfl⟩
  simpa [addSize, opening] using ha.sizes

theorem near_open (hE : Refines E V R) (hs : R s c) (ha : Near V c k n rest) {call : Call} {e : Expecter}
    (he : expecterOf call = some e) (hp : plain e) (hv : V.verdict e n = .opens) :
    ∃ s' c' j, Empties k j ∧ Conv (fun f => E.step f s call) (.coll (V.size n), s') ∧ R s' c' ∧
      Ready c' (k + 1) (k + 1) ((some k, V.items n) :: (j ++ rest)) ∧ c'.denied = c.denied := by
  obtain ⟨j, hj, hcur⟩ := ha.current e hp
  have hst := Step.read (V := V) he ha.fatal hcur
  simp only [react, hv, ha.sizes] at hst
  obtain ⟨s', h1, h2⟩ := hE _ _ _ _ _ hs hst
  exact ⟨s', _, j, hj, h1, h2, ⟨ha.fatal, rfl, by simp [ha.sizes], [], .nil, rfl⟩, rfl⟩

theorem ready_absorb {k' k : Nat} {j : List (Frame N)} (hj : Empties k j)
    (hr : Ready c k' (k + 1) ((some k, []) :: (j ++ rest))) : Ready c k' k rest := by
  have h := ready_close hr
  obtain ⟨i, hi, hf⟩ := h.frames
  exact ⟨h.fatal, h.pending, h.sizes, i ++ j, hi.append hj, by rw [hf, List.append_assoc]⟩

theorem near_value {m : N} {lo : Nat} {h : Option Nat} {ns : List N} {fs : List (Frame N)}
    (hr : Ready c k lo ((h, n :: ns) :: fs)) (hl : Lands V n m) : Near V c k m ((h, ns) :: fs) := by
  obtain ⟨i, hi, hfr⟩ := hr.frames
  refine ⟨hr.fatal, hr.sizes, fun e he => ?_⟩
  obtain ⟨j, hj, hn⟩ := next_core (hl e he) h ns fs k
  refine ⟨j, hj, .next hr.pending ?_⟩
  rw [hfr]
  exact next_empties hi hn

theorem near_key {a b m : N} {lo : Nat} {h : Option Nat} {ns : List N} {fs : List (Frame N)}
    (hr : Ready c k lo ((h, n :: ns) :: fs)) (hn : ∀ e, plain e → V.layer e n = some [a, b]) (hl : Lands V a m) :
    Near V c k m ((none, [b]) :: (h, ns) :: fs) := by
  obtain ⟨i, hi, hfr⟩ := hr.frames
  refine ⟨hr.fatal, hr.sizes, fun e he => ?_⟩
  obtain ⟨j, hj, hnx⟩ := next_core (hl e he) none [b] ((h, ns) :: fs) k
  refine ⟨j, hj, .next hr.pending ?_⟩
  rw [hfr]
  exact next_empties hi (.enter (hn e he) hnx)

end Blocks

variable (E V R L P)

/-- The code for a variable of type `t` with the value `old` reads the value `v` from the node `n`. -/
def Yields (k : Nat) (n : N) (t : Ty) (om : Bool) (old v : Val) : Prop :=
  ∃ k', k ≤ k' ∧ ∀ s c rest, R s c → Near V c k n rest →
    ∃ s' c', Conv (fun f => dec E L P f t om old s k) (v, s', k') ∧ R s' c' ∧ Ready c' k' k rest ∧ c'.denied = c.denied

variable {E V R L P}

theorem yields_leaf (hE : Refines E V R) {k : Nat} {n : N} {t : Ty} {om : Bool} {z v : Val} (call : Call) {e : Expecter}
    {o : Out N} (v' : Out N → Val) (he : expecterOf call = some e) (hp : plain e) (hop : opening call = false)
    (hv : V.verdict e n = .whole) (ho : valueOf V n call = .ok o)
    (hd : ∀ f s, dec E L P (f + 1) t om z s k = (do
      let p ← E.step f s call
      .ok (v' p.1, p.2, k))) (hvo : v' o = v) : Yields E V R L P k n t om z v := by
  refine ⟨k, Nat.le_refl _, fun s c rest hs ha => ?_⟩
  obtain ⟨s', c', h1, h2, h3, h4⟩ := near_leaf hE hs ha he hp hop hv ho
  refine ⟨s', c', Conv.succ (fun f => hd f s) (Conv.bind h1 ?_), h2, h3, h4⟩
  subst hvo
  exact Conv.pure _

/-- A null read by code which begins with `TryNull`. -/
theorem yields_null (hE : Refines E V R) {k : Nat} {n : N} {t : Ty} {om : Bool} {z v : Val}
    (hv : V.verdict .null n = .whole) {g : Nat → Out N × σ → Res (Val × σ × Nat)}
    (hd : ∀ f s, dec E L P (f + 1) t om z s k = (E.step f s .tryNull >>= g f))
    (hg : ∀ f s, g f (.bool true, s) = .ok (v, s, k)) : Yields E V R L P k n t om z v := by
  refine ⟨k, Nat.le_refl _, fun s c rest hs ha => ?_⟩
  obtain ⟨s', c', h1, h2, h3, h4⟩ := near_null hE hs ha hv
  refine ⟨s', c', Conv.succ (fun f => hd f s) (Conv.bind h1 ?_), h2, h3, h4⟩
  exact Conv.congr (fun f => hg f s') (Conv.pure _)

/-! ### Elements -/

/-- The elements are read, one by one. -/
inductive Each (E : Engine σ N) (V : View N) (R : σ → Cursor N → Prop) (L : Lib) (P : Package) (t : Ty) (om : Bool) :
    List Val → List N → List Val → Prop
  | nil : Each E V R L P t om [] [] []
  | cons {o os n m ns v vs} : Lands V n m → (∀ k, Yields E V R L P k m t om o v) → Each E V R L P t om os ns vs →
      Each E V R L P t om (o :: os) (n :: ns) (v :: vs)

theorem each_slice (hE : Refines E V R) {t : Ty} {om : Bool} {os vs : List Val} {ns : List N}
    (hg : Each E V R L P t om os ns vs) (hz : ∀ o ∈ os, IsZero L P t o) :
    ∀ (h k : Nat) (acc : List Val), h < k → ∃ k', k ≤ k' ∧
      ∀ s c fs, R s c → Ready c k (h + 1) ((some h, ns) :: fs) →
      ∃ s' c', Conv (fun f => decItems E L P f t om h acc s k) (acc ++ vs, s', k') ∧ R s' c' ∧
        Ready c' k' (h + 1) ((some h, []) :: fs) ∧ c'.denied = c.denied := by
  induction hg with
  | nil =>
    intro h k acc hk
    refine ⟨k, Nat.le_refl _, fun s c fs hs hr => ?_⟩
    obtain ⟨s', h1, h2⟩ := read_items hE hs (Nat.lt_succ_self h) hr
    refine ⟨s', c, Conv.succ (fun f => by rw [decItems]) (Conv.bind h1 ?_), h2, hr, rfl⟩
    rw [List.append_nil]
    exact Conv.pure _
  | @cons o os n m ns v vs hl hv _ ih =>
    intro h k acc hk
    obtain ⟨k1, hk1, g1⟩ := hv k
    obtain ⟨k2, hk2, g2⟩ := ih (fun o ho => hz o (by simp [ho])) h k1 (acc ++ [v]) (by omega)
    refine ⟨k2, by omega, fun s c fs hs hr => ?_⟩
    obtain ⟨s', h1, h2⟩ := read_items hE hs (Nat.lt_succ_self h) hr
    obtain ⟨s1, c1, h3, h4, h5, h6⟩ := g1 s' c ((some h, ns) :: fs) h2 (near_value hr hl)
    obtain ⟨s2, c2, h7, h8, h9, h10⟩ := g2 s1 c1 fs h4 (h5.mono hk)
    refine ⟨s2, c2, Conv.succ (fun f => by rw [decItems]) (Conv.bind h1 (Conv.bind (hz o (by simp)).conv (Conv.bind h3 ?_))), h8, h9,
      h10.trans h6⟩
    rw [List.append_assoc] at h7
    exact h7

theorem each_array (hE : Refines E V R) {t : Ty} {om : Bool} {os vs : List Val} {ns : List N}
    (hg : Each E V R L P t om os ns vs) (rest : List Val) :
    ∀ (len h k : Nat) (done : List Val), h < k → done.length + (os.length + rest.length) = len → ∃ k', k ≤ k' ∧
      ∀ s c fs, R s c → Ready c k (h + 1) ((some h, ns) :: fs) →
      ∃ s' c', Conv (fun f => decArray E L P f len t om h done.length (done ++ (os ++ rest)) s k)
          (done ++ (vs ++ rest), s', k') ∧ R s' c' ∧
        Ready c' k' (h + 1) ((some h, []) :: fs) ∧ c'.denied = c.denied := by
  induction hg with
  | nil =>
    intro len h k done hk _
    refine ⟨k, Nat.le_refl _, fun s c fs hs hr => ?_⟩
    obtain ⟨s', h1, h2⟩ := read_items hE hs (Nat.lt_succ_self h) hr
    refine ⟨s', c, Conv.succ (fun f => by rw [decArray]) (Conv.bind h1 ?_), h2, hr, rfl⟩
    exact Conv.pure _
  | @cons o os n m ns v vs hln hv _ ih =>
    intro len h k done hk hl
    simp only [List.length_cons] at hl
    obtain ⟨k1, hk1, g1⟩ := hv k
    obtain ⟨k2, hk2, g2⟩ := ih len h k1 (done ++ [v]) (by omega) (by simp; omega)
    refine ⟨k2, by omega, fun s c fs hs hr => ?_⟩
    obtain ⟨s', h1, h2⟩ := read_items hE hs (Nat.lt_succ_self h) hr
    obtain ⟨s1, c1, h3, h4, h5, h6⟩ := g1 s' c ((some h, ns) :: fs) h2 (near_value hr hln)
    obtain ⟨s2, c2, h7, h8, h9, h10⟩ := g2 s1 c1 fs h4 (h5.mono hk)
    refine ⟨s2, c2, Conv.succ (fun f => by rw [decArray]) (Conv.bind h1 ?_), h8, h9, h10.trans h6⟩
    have hlt : decide (done.length < len) = true := decide_eq_true (by omega)
    simp only [List.isEmpty_cons, Bool.not_false, toBool, hlt, Bool.and_self, if_true]
    refine Conv.bind (x := (v, s1, k1)) ?_ ?_
    · have : (done ++ (o :: os ++ rest)).getD done.length .nil = o := by simp [List.getD]
      rw [this]
      exact h3
    · have : (done ++ (o :: os ++ rest)).set done.length v = done ++ [v] ++ (os ++ rest) := by
        rw [List.set_append_right _ _ (Nat.le_refl _)]
        simp
      simp only [this]
      rw [List.length_append] at h7
      simpa using h7

/-! ### Entries -/

/-- How the cursor gets to the next key and its value. -/
def Enters (V : View N) (ns : List N) (a b : N) (ns' : List N) : Prop :=
  ns.isEmpty = false ∧ ∀ (c : Cursor N) k lo h fs, Ready c k lo ((h, ns) :: fs) → ∃ rest1, Near V c k a rest1 ∧
    ∀ c1 k1 lo1, Ready c1 k1 lo1 rest1 → ∃ rest2, Near V c1 k1 b rest2 ∧
      ∀ c2 k2 lo2 lo', lo' ≤ lo2 → Ready c2 k2 lo2 rest2 → Ready c2 k2 lo' ((h, ns') :: fs)

theorem enters {k v : Doc} {es : List (Doc × Doc)} {ns : List N} (h : DisplaysEntries V ((k, v) :: es) ns) :
    ∃ a b ns', Is V k a ∧ Is V v b ∧ DisplaysEntries V es ns' ∧ Enters V ns a b ns' := by
  cases h with
  | two ha hb he =>
    cases ha with
    | mk la ia =>
      cases hb with
      | mk lb ib =>
        refine ⟨_, _, _, ia, ib, he, rfl, fun c k lo h fs hr => ⟨_, near_value hr la, fun c1 k1 lo1 h1 => ?_⟩⟩
        exact ⟨_, near_value h1 lb, fun c2 k2 lo2 lo' hl h2 => h2.mono hl⟩
  | entry hl ha hb he =>
    cases ha with
    | mk la ia =>
      cases hb with
      | mk lb ib =>
        refine ⟨_, _, _, ia, ib, he, rfl, fun c k lo h fs hr => ⟨_, near_key hr hl la, fun c1 k1 lo1 h1 => ?_⟩⟩
        exact ⟨_, near_value h1 lb, fun c2 k2 lo2 lo' hl h2 => h2.drop hl⟩

/-- Assignments to a map, one by one. -/
def assignAll (acc : List Val) (kvs : List (Val × Val)) : List Val := kvs.foldl (fun m p => putEntry p.1 p.2 m) acc

/-- The entries of a map are read, one by one. -/
inductive EachPair (E : Engine σ N) (V : View N) (R : σ → Cursor N → Prop) (L : Lib) (P : Package) (t u : Ty) (om : Bool) :
    List N → List (Val × Val) → Prop
  | nil : EachPair E V R L P t u om [] []
  | cons {ns a b ns' zk zv key v kvs} : Enters V ns a b ns' → IsZero L P t zk → IsZero L P u zv →
      (∀ k, Yields E V R L P k a t om zk key) → (∀ k, Yields E V R L P k b u om zv v) →
      EachPair E V R L P t u om ns' kvs → EachPair E V R L P t u om ns ((key, v) :: kvs)

theorem each_pair (hE : Refines E V R) {t u : Ty} {om : Bool} {ns : List N} {kvs : List (Val × Val)}
    (hg : EachPair E V R L P t u om ns kvs) :
    ∀ (h k : Nat) (acc : List Val), h < k → ∃ k', k ≤ k' ∧
      ∀ s c fs, R s c → Ready c k (h + 1) ((some h, ns) :: fs) →
      ∃ s' c', Conv (fun f => decEntries E L P f t u om h (.map acc) s k) (.map (assignAll acc kvs), s', k') ∧ R s' c' ∧
        Ready c' k' (h + 1) ((some h, []) :: fs) ∧ c'.denied = c.denied := by
  induction hg with
  | nil =>
    intro h k acc hk
    refine ⟨k, Nat.le_refl _, fun s c fs hs hr => ?_⟩
    obtain ⟨s', h1, h2⟩ := read_items hE hs (Nat.lt_succ_self h) hr
    refine ⟨s', c, Conv.succ (fun f => by rw [decEntries]) (Conv.bind h1 ?_), h2, hr, rfl⟩
    exact Conv.pure _
  | @cons ns a b ns' zk zv key v kvs hent hzk hzv hgk hgv _ ih =>
    intro h k acc hk
    obtain ⟨hne, hnodes⟩ := hent
    obtain ⟨k1, hk1, g1⟩ := hgk k
    obtain ⟨k2, hk2, g2⟩ := hgv k1
    obtain ⟨k3, hk3, g3⟩ := ih h k2 (putEntry key v acc) (by omega)
    refine ⟨k3, by omega, fun s c fs hs hr => ?_⟩
    obtain ⟨s0, h1, h2⟩ := read_items hE hs (Nat.lt_succ_self h) hr
    obtain ⟨rest1, hat1, hn1⟩ := hnodes c k _ _ _ hr
    obtain ⟨s1, c1, e1, r1, y1, d1⟩ := g1 s0 c rest1 h2 hat1
    obtain ⟨rest2, hat2, hn2⟩ := hn1 c1 k1 _ y1
    obtain ⟨s2, c2, e2, r2, y2, d2⟩ := g2 s1 c1 rest2 r1 hat2
    obtain ⟨s3, c3, e3, r3, y3, d3⟩ := g3 s2 c2 fs r2 (hn2 c2 k2 k1 (h + 1) (by omega) y2)
    refine ⟨s3, c3, Conv.succ (fun f => by rw [decEntries]) (Conv.bind h1 ?_), r3, y3, d3.trans (d2.trans d1)⟩
    simp only [hne, Bool.not_false, toBool, if_true]
    exact Conv.bind hzk.conv (Conv.bind hzv.conv (Conv.bind e1 (Conv.bind e2 e3)))

/-! ### Fields -/

theorem branch_none {key : List Char} : ∀ {fs : List Field}, key ∉ fs.map Field.name → branch key fs = none
  | [], _ => rfl
  | f :: fs, h => by
    simp only [List.map_cons, List.mem_cons, not_or] at h
    rw [branch, if_neg (Ne.symm h.1), branch_none h.2]
    rfl

theorem branch_field {key : List Char} : ∀ {fs : List Field} {i : Nat} {f : Field}, FieldAt fs key i f →
    branch key fs = some (i, f)
  | [], i, f, h => by have := h.1; simp at this
  | g :: fs, 0, f, h => by
    have h1 := h.1
    simp only [List.getElem?_cons_zero, Option.some.injEq] at h1
    subst h1
    rw [branch, if_pos h.2.1]
  | g :: fs, i + 1, f, h => by
    have hne : g.name ≠ key := h.2.2 0 g (Nat.succ_pos _) rfl
    have := branch_field (fs := fs) (i := i) (f := f) ⟨by simpa using h.1, h.2.1, fun j g' hj hg =>
      h.2.2 (j + 1) g' (by omega) (by simpa using hg)⟩
    rw [branch, if_neg hne, this]
    rfl

/-- The entries of a mapping are read into a struct, one by one. -/
inductive EachField (E : Engine σ N) (V : View N) (R : σ → Cursor N → Prop) (L : Lib) (P : Package) (fs : List Field) :
    List Val → List N → List Val → Prop
  | nil {vs} : EachField E V R L P fs vs [] vs
  | null {vs ns a b ns' vs'} : Enters V ns a b ns' → V.verdict .string a = .whole → V.verdict .null b = .whole →
      EachField E V R L P fs vs ns' vs' → EachField E V R L P fs vs ns vs'
  | field {vs ns a b ns' vs' i d v} : Enters V ns a b ns' → V.verdict .string a = .whole → V.verdict .null b = .deny →
      branch (V.text a) fs = some (i, d) → (∀ k, Yields E V R L P k b d.ty d.omitempty (vs.getD i .nil) v) →
      EachField E V R L P fs (vs.set i v) ns' vs' → EachField E V R L P fs vs ns vs'
  | unknown {vs ns a b ns' vs'} : Enters V ns a b ns' → V.verdict .string a = .whole → V.verdict .null b = .deny →
      branch (V.text a) fs = none → P.disallowUnknownFields = false →
      EachField E V R L P fs vs ns' vs' → EachField E V R L P fs vs ns vs'

theorem each_field (hE : Refines E V R) (hskip : ∀ n, V.verdict .skip n = .whole) {fs : List Field} {vs vs' : List Val}
    {ns : List N} (hg : EachField E V R L P fs vs ns vs') :
    ∀ (h k : Nat), h < k → ∃ k', k ≤ k' ∧
      ∀ s c gs, R s c → Ready c k (h + 1) ((some h, ns) :: gs) →
      ∃ s' c', Conv (fun f => decFields E L P f fs h vs s k) (vs', s', k') ∧ R s' c' ∧
        Ready c' k' (h + 1) ((some h, []) :: gs) ∧ c'.denied = c.denied := by
  have hp : plain .string := ⟨by decide, by decide, by decide⟩
  induction hg with
  | nil =>
    intro h k hk
    refine ⟨k, Nat.le_refl _, fun s c fs hs hr => ?_⟩
    obtain ⟨s', h1, h2⟩ := read_items hE hs (Nat.lt_succ_self h) hr
    refine ⟨s', c, Conv.succ (fun f => by rw [decFields]) (Conv.bind h1 ?_), h2, hr, rfl⟩
    exact Conv.pure _
  | null hent hstr hnull _ ih =>
    intro h k hk
    obtain ⟨hne, hnodes⟩ := hent
    obtain ⟨k3, hk3, g3⟩ := ih h k hk
    refine ⟨k3, by omega, fun s c gs hs hr => ?_⟩
    obtain ⟨s0, h1, h2⟩ := read_items hE hs (Nat.lt_succ_self h) hr
    obtain ⟨rest1, hat1, hn1⟩ := hnodes c k _ _ _ hr
    obtain ⟨s1, c1, e1, r1, y1, d1⟩ := near_leaf hE h2 hat1 (call := .string) rfl hp rfl hstr rfl
    obtain ⟨rest2, hat2, hn2⟩ := hn1 c1 k _ y1
    obtain ⟨s2, c2, e2, r2, y2, d2⟩ := near_null hE r1 hat2 hnull
    obtain ⟨s3, c3, e3, r3, y3, d3⟩ := g3 s2 c2 gs r2 (hn2 c2 k k (h + 1) (by omega) y2)
    refine ⟨s3, c3, Conv.succ (fun f => by rw [decFields]) (Conv.bind h1 ?_), r3, y3, d3.trans (d2.trans d1)⟩
    simp only [hne, Bool.not_false, toBool, if_true]
    refine Conv.bind e1 (Conv.bind e2 ?_)
    simpa [toBool] using e3
  | @field vs ns a b ns' vs' i d v hent hstr hnull hbr hgv _ ih =>
    intro h k hk
    obtain ⟨hne, hnodes⟩ := hent
    obtain ⟨k2, hk2, g2⟩ := hgv k
    obtain ⟨k3, hk3, g3⟩ := ih h k2 (by omega)
    refine ⟨k3, by omega, fun s c gs hs hr => ?_⟩
    obtain ⟨s0, h1, h2⟩ := read_items hE hs (Nat.lt_succ_self h) hr
    obtain ⟨rest1, hat1, hn1⟩ := hnodes c k _ _ _ hr
    obtain ⟨s1, c1, e1, r1, y1, d1⟩ := near_leaf hE h2 hat1 (call := .string) rfl hp rfl hstr rfl
    obtain ⟨rest2, hat2, hn2⟩ := hn1 c1 k _ y1
    obtain ⟨s2, c2, e2, r2, hat3, d2, -⟩ := near_probe hE r1 hat2 hnull
    obtain ⟨s3, c3, e3, r3, y3, d3⟩ := g2 s2 c2 rest2 r2 hat3
    obtain ⟨s4, c4, e4, r4, y4, d4⟩ := g3 s3 c3 gs r3 (hn2 c3 k2 k (h + 1) (by omega) y3)
    refine ⟨s4, c4, Conv.succ (fun f => by rw [decFields]) (Conv.bind h1 ?_), r4, y4,
      d4.trans (d3.trans (d2.trans d1))⟩
    simp only [hne, Bool.not_false, toBool, if_true]
    refine Conv.bind e1 (Conv.bind e2 ?_)
    simp only [toBool, Bool.false_eq_true, if_false, toStr, hbr]
    exact Conv.bind e3 e4
  | @unknown vs ns a b ns' vs' hent hstr hnull hbr hdis _ ih =>
    intro h k hk
    obtain ⟨hne, hnodes⟩ := hent
    obtain ⟨k3, hk3, g3⟩ := ih h k hk
    refine ⟨k3, by omega, fun s c gs hs hr => ?_⟩
    obtain ⟨s0, h1, h2⟩ := read_items hE hs (Nat.lt_succ_self h) hr
    obtain ⟨rest1, hat1, hn1⟩ := hnodes c k _ _ _ hr
    obtain ⟨s1, c1, e1, r1, y1, d1⟩ := near_leaf hE h2 hat1 (call := .string) rfl hp rfl hstr rfl
    obtain ⟨rest2, hat2, hn2⟩ := hn1 c1 k _ y1
    obtain ⟨s2, c2, e2, r2, hat3, d2, j, hj, hcur⟩ := near_probe hE r1 hat2 hnull
    obtain ⟨o, s3, c3, e3, r3, y3, d3⟩ := near_skip hE hskip r2 hat3 hj hcur
    obtain ⟨s4, c4, e4, r4, y4, d4⟩ := g3 s3 c3 gs r3 (hn2 c3 k k (h + 1) (by omega) y3)
    refine ⟨s4, c4, Conv.succ (fun f => by rw [decFields]) (Conv.bind h1 ?_), r4, y4,
      d4.trans (d3.trans (d2.trans d1))⟩
    simp only [hne, Bool.not_false, toBool, if_true]
    refine Conv.bind e1 (Conv.bind e2 ?_)
    simp only [toBool, Bool.false_eq_true, if_false, toStr, hbr, hdis]
    exact Conv.bind e3 e4

/-! ### Assignments to a map -/

theorem FirstKeys.mem {l r : List Val} (h : FirstKeys l r) : ∀ k, k ∈ r ↔ k ∈ l := by
  induction h with
  | nil => intro k; rfl
  | new _ _ ih => intro k; simp [ih]
  | again _ hk ih =>
    intro k
    simp only [ih, List.mem_append, List.mem_singleton]
    exact ⟨.inl, fun h => h.elim id fun h => h ▸ hk⟩

theorem FirstKeys.nodup {l r : List Val} (h : FirstKeys l r) : r.Nodup := by
  induction h with
  | nil => exact List.nodup_nil
  | new hr hk ih =>
    rw [List.nodup_append]
    refine ⟨ih, by simp, fun a ha b hb => ?_⟩
    rw [List.mem_singleton] at hb
    subst hb
    intro hab
    subst hab
    exact hk ((hr.mem _).mp ha)
  | again _ _ ih => exact ih

theorem FirstKeys.unique {l r r' : List Val} (h : FirstKeys l r) (h' : FirstKeys l r') : r = r' := by
  induction h generalizing r' with
  | nil =>
    generalize hl : ([] : List Val) = l at h'
    cases h' with
    | nil => rfl
    | new _ _ => simp at hl
    | again _ _ => simp at hl
  | @new l r k _ hk ih =>
    generalize hl : l ++ [k] = m at h'
    cases h' with
    | nil => simp at hl
    | new hr _ =>
      obtain ⟨rfl, h⟩ := List.append_inj' hl rfl
      cases h
      rw [ih hr]
    | again _ hk' =>
      obtain ⟨rfl, h⟩ := List.append_inj' hl rfl
      cases h
      exact absurd hk' hk
  | @again l r k _ hk ih =>
    generalize hl : l ++ [k] = m at h'
    cases h' with
    | nil => simp at hl
    | new _ hk' =>
      obtain ⟨rfl, h⟩ := List.append_inj' hl rfl
      cases h
      exact absurd hk hk'
    | again hr _ =>
      obtain ⟨rfl, h⟩ := List.append_inj' hl rfl
      cases h
      exact ih hr

theorem lastValue_snoc {kvs : List (Val × Val)} {k v k' v' : Val} :
    LastValue (kvs ++ [(k, v)]) k' v' ↔ (k' = k ∧ v' = v) ∨ (k' ≠ k ∧ LastValue kvs k' v') := by
  constructor
  · rintro ⟨a, b, he, hb⟩
    rcases List.eq_nil_or_concat b with rfl | ⟨b, x, rfl⟩
    · obtain ⟨-, h⟩ := List.append_inj' he rfl
      cases h
      exact .inl ⟨rfl, rfl⟩
    · rw [List.concat_eq_append, ← List.cons_append, ← List.append_assoc] at he
      obtain ⟨h1, h2⟩ := List.append_inj' he rfl
      cases h2
      simp only [List.concat_eq_append, List.map_append, List.mem_append, not_or, List.map_cons, List.map_nil, List.mem_singleton] at hb
      exact .inr ⟨hb.2, a, b, h1, hb.1⟩
  · rintro (⟨rfl, rfl⟩ | ⟨hne, a, b, rfl, hb⟩)
    · exact ⟨kvs, [], rfl, by simp⟩
    · exact ⟨a, b ++ [(k, v)], by simp, by simp [hb, hne]⟩

theorem LastValue.unique {kvs : List (Val × Val)} {k v w : Val} (h : LastValue kvs k v) (h' : LastValue kvs k w) : v = w := by
  rcases List.eq_nil_or_concat kvs with rfl | ⟨l, ⟨a, b⟩, rfl⟩
  · obtain ⟨a, b, he, _⟩ := h
    simp at he
  · rw [List.concat_eq_append, lastValue_snoc] at h h'
    rcases h with ⟨rfl, rfl⟩ | ⟨hne, h⟩ <;> rcases h' with ⟨h1, h2⟩ | ⟨hne', h'⟩
    · exact h2.symm
    · exact absurd rfl hne'
    · exact absurd h1 hne
    · exact LastValue.unique h h'
termination_by kvs.length
decreasing_by subst_vars; simp

theorem Assigned.unique {kvs ps qs : List (Val × Val)} (h : Assigned kvs ps) (h' : Assigned kvs qs) : ps = qs := by
  have hk := h.1.unique h'.1
  have hv : ∀ k v w, (k, v) ∈ ps → (k, w) ∈ qs → v = w := fun k v w h1 h2 =>
    LastValue.unique ((h.2 k v).mp h1) ((h'.2 k w).mp h2)
  clear h h'
  induction ps generalizing qs with
  | nil => cases qs with
    | nil => rfl
    | cons => simp at hk
  | cons p ps ih =>
    cases qs with
    | nil => simp at hk
    | cons q qs =>
      obtain ⟨k, v⟩ := p
      obtain ⟨k', w⟩ := q
      simp only [List.map_cons, List.cons.injEq] at hk
      obtain ⟨rfl, hk⟩ := hk
      rw [hv k v w (by simp) (by simp), ih hk fun k v w h1 h2 => hv k v w (by simp [h1]) (by simp [h2])]

/-- One assignment. -/
def put (k v : Val) : List (Val × Val) → List (Val × Val)
  | [] => [(k, v)]
  | (k', v') :: ps => if same k' k then (k', v) :: ps else (k', v') :: put k v ps

theorem put_entries (k v : Val) : ∀ ps, putEntry k v (entriesOf ps) = entriesOf (put k v ps)
  | [] => rfl
  | (k', v') :: ps => by
    have ih := put_entries k v ps
    simp only [entriesOf, List.map_cons, putEntry, put] at ih ⊢
    split
    · rfl
    · rw [ih, List.map_cons]

open Classical in
theorem put_keys {k v : Val} : ∀ {ps : List (Val × Val)},
    (put k v ps).map Prod.fst = if k ∈ ps.map Prod.fst then ps.map Prod.fst else ps.map Prod.fst ++ [k]
  | [] => by simp [put]
  | (k', v') :: ps => by
    rw [put]
    by_cases h : same k' k = true
    · rw [if_pos h]
      rw [same_iff] at h
      subst h
      simp
    · rw [if_neg h, List.map_cons, put_keys]
      rw [same_iff] at h
      simp only [List.map_cons, List.mem_cons, Ne.symm h, false_or]
      split <;> rfl

theorem put_mem {k v k' v' : Val} : ∀ {ps : List (Val × Val)}, (ps.map Prod.fst).Nodup →
    ((k', v') ∈ put k v ps ↔ (k' = k ∧ v' = v) ∨ (k' ≠ k ∧ (k', v') ∈ ps))
  | [], _ => by simp [put]
  | (a, b) :: ps, hn => by
    simp only [List.map_cons, List.nodup_cons] at hn
    rw [put]
    by_cases h : same a k = true
    · rw [if_pos h]
      rw [same_iff] at h
      subst h
      simp only [List.mem_cons, Prod.mk.injEq]
      constructor
      · rintro (h | h)
        · exact .inl h
        · refine .inr ⟨fun he => ?_, .inr h⟩
          subst he
          exact hn.1 (List.mem_map_of_mem (f := Prod.fst) h)
      · rintro (h | ⟨h1, h | h⟩)
        · exact .inl h
        · exact absurd h.1 h1
        · exact .inr h
    · rw [if_neg h]
      rw [same_iff] at h
      simp only [List.mem_cons, Prod.mk.injEq, put_mem hn.2]
      constructor
      · rintro (⟨rfl, rfl⟩ | h1 | ⟨h1, h2⟩)
        · exact .inr ⟨h, .inl ⟨rfl, rfl⟩⟩
        · exact .inl h1
        · exact .inr ⟨h1, .inr h2⟩
      · rintro (h1 | ⟨h1, h2 | h2⟩)
        · exact .inr (.inl h1)
        · exact .inl h2
        · exact .inr (.inr ⟨h1, h2⟩)

theorem assigned_put {kvs ps : List (Val × Val)} {k v : Val} (h : Assigned kvs ps) : Assigned (kvs ++ [(k, v)]) (put k v ps) := by
  refine ⟨?_, fun k' v' => ?_⟩
  · rw [List.map_append, List.map_cons, List.map_nil, put_keys]
    split
    · rename_i hk
      exact .again h.1 ((h.1.mem _).mp hk)
    · rename_i hk
      exact .new h.1 fun hk' => hk ((h.1.mem _).mpr hk')
  · rw [put_mem h.1.nodup, lastValue_snoc, h.2]

theorem assigned_all {kvs ps : List (Val × Val)} (h : Assigned kvs ps) : ∀ (more : List (Val × Val)),
    ∃ qs, Assigned (kvs ++ more) qs ∧ assignAll (entriesOf ps) more = entriesOf qs
  | [] => ⟨ps, by simpa using h, rfl⟩
  | (k, v) :: more => by
    obtain ⟨qs, h1, h2⟩ := assigned_all (assigned_put (k := k) (v := v) h) more
    refine ⟨qs, by simpa using h1, ?_⟩
    rw [← h2, ← put_entries]
    rfl

theorem assigned_map {kvs ps : List (Val × Val)} (h : Assigned kvs ps) : assignAll [] kvs = entriesOf ps := by
  obtain ⟨qs, h1, h2⟩ := assigned_all (kvs := []) (ps := []) ⟨.nil, fun k v => by simp [LastValue]⟩ kvs
  rw [h1.unique h] at h2
  exact h2

/-- Every list of assignments has a result. -/
theorem assigned_exists (kvs : List (Val × Val)) : ∃ ps, Assigned kvs ps := by
  obtain ⟨qs, h1, _⟩ := assigned_all (kvs := []) (ps := []) ⟨.nil, fun k v => by simp [LastValue]⟩ kvs
  exact ⟨qs, h1⟩

/-! ### Documents -/

/-- What is needed of the libraries. -/
structure Lawful (V : View N) (M : Rules) : Prop where
  skip : ∀ n, V.verdict .skip n = .whole
  float : ∀ t n, M.float t n = true → V.toFloat t n = true
  texts : M.texts = true → V.drains = false

theorem MeansItems.length {t : Ty} {om : Bool} {os : List Val} {ds : List Doc} {vs : List Val}
    (h : MeansItems M L P t om os ds vs) : os.length = ds.length ∧ vs.length = ds.length := by
  generalize hk : ds.length = k
  induction k generalizing os ds vs with
  | zero =>
    obtain rfl := List.length_eq_zero_iff.mp hk
    cases h
    exact ⟨rfl, rfl⟩
  | succ k ih =>
    cases h with
    | nil => cases hk
    | cons _ h =>
      obtain ⟨h1, h2⟩ := ih h (by simpa using hk)
      exact ⟨by simp [h1], by simp [h2]⟩

section Main

variable (hE : Refines E V R) (hV : Lawful V M)

include hE hV

mutual
theorem means_yields {t : Ty} {om : Bool} {old : Val} {d : Doc} {v : Val} (h : Means M L P t om old d v) :
    ∀ n, Is V d n → ∀ k, Yields E V R L P k n t om old v := by
  have pstr : plain .string := ⟨by decide, by decide, by decide⟩
  have pseq : plain .sequence := ⟨by decide, by decide, by decide⟩
  have pmap : plain .mapping := ⟨by decide, by decide, by decide⟩
  intro n hn k
  match h with
  | .string =>
    cases hn with
    | scalar _ hs _ _ _ =>
      exact yields_leaf hE .string (fun o => .str (toStr o)) rfl pstr rfl hs rfl (fun f s => by rw [dec]) rfl
  | .bool hb =>
    cases hn with
    | scalar _ _ _ hs _ =>
      refine yields_leaf hE .boolean (fun o => .bool (toBool o)) rfl ⟨by decide, by decide, by decide⟩ rfl
        (hs ((Props.Scalars.boolean_class_iff _).mpr ⟨_, hb⟩)) (o := .bool _) ?_ (fun f s => by rw [dec]) rfl
      rw [valueOf, (Props.Scalars.boolean_iff _ _).mpr hb]
  | .int (n := b) hd hz hr =>
    cases hn with
    | scalar _ _ hs _ _ =>
      refine yields_leaf hE (.integer b) (fun o => .int (toInt o)) rfl ⟨by decide, by decide, by decide⟩ rfl
        (hs ((Props.Scalars.isInteger_iff _).mpr ⟨_, hd⟩)) (o := .int _) ?_ (fun f s => by rw [dec]) rfl
      rw [valueOf, Props.Scalars.integer_text_converts_partial _ _ b hd hz, if_pos hr]
  | .uint (n := b) hd hz h1 h2 hr =>
    cases hn with
    | scalar _ _ hs _ _ =>
      refine yields_leaf hE (.unsigned b) (fun o => .uint (toUint o)) rfl ⟨by decide, by decide, by decide⟩ rfl
        (hs ((Props.Scalars.isInteger_iff _).mpr ⟨_, hd⟩)) (o := .uint _) ?_ (fun f s => by rw [dec]) rfl
      rw [valueOf, (Props.Scalars.unsigned_text_converts_partial _ _ b hd ⟨h1, h2⟩ hz).2, if_pos hr]
  | .float (n := b) ht hf =>
    cases hn with
    | scalar _ _ _ _ hs =>
      refine yields_leaf hE (.float b) (fun o => .float (L.toFloat (toFloat o))) rfl ⟨by decide, by decide, by decide⟩ rfl
        (hs ((Props.Scalars.float_iff _).mpr ht)) (o := .float (some _)) ?_ (fun f s => by rw [dec]) rfl
      rw [valueOf, if_pos (hV.float _ _ hf)]
  | .text hM hu =>
    cases hn with
    | scalar _ hs _ _ _ =>
      refine ⟨k, Nat.le_refl _, fun s c rest hs' ha => ?_⟩
      obtain ⟨s1, c1, e1, r1, y1, d1⟩ := near_leaf hE hs' ha (call := .string) rfl pstr rfl hs rfl
      obtain ⟨s2, e2, r2⟩ := hE _ _ _ _ _ r1 (Step.addNil (V := V) y1.fatal (hV.texts hM))
      refine ⟨s2, c1, Conv.succ (fun f => by rw [dec]) (Conv.bind e1 ?_), r2, y1, d1⟩
      simp only [toStr, hu]
      exact Conv.bind e2 (Conv.pure _)
  | .bytesNull =>
    cases hn with
    | null hv => exact yields_null hE hv (fun f s => by rw [dec]) (fun f s => rfl)
  | .bytes =>
    cases hn with
    | scalar h0 hs _ _ _ =>
      refine ⟨k, Nat.le_refl _, fun s c rest hs' ha => ?_⟩
      obtain ⟨s1, c1, e1, r1, a1, d1, -⟩ := near_probe hE hs' ha h0
      obtain ⟨s2, c2, e2, r2, y2, d2⟩ := near_leaf hE r1 a1 (call := .string) rfl pstr rfl hs rfl
      refine ⟨s2, c2, Conv.succ (fun f => by rw [dec]) (Conv.bind e1 (Conv.bind e2 ?_)), r2, y2, d2.trans d1⟩
      exact Conv.pure _
  | .sliceNull =>
    cases hn with
    | null hv => exact yields_null hE hv (fun f s => by rw [dec]) (fun f s => rfl)
  | .slice hz hi =>
    cases hn with
    | seq h0 hv hitems =>
      obtain ⟨k', hk', g⟩ := each_slice hE (items_yields hi _ hitems) hz k (k + 1) [] (Nat.lt_succ_self k)
      refine ⟨k', by omega, fun s c rest hs ha => ?_⟩
      obtain ⟨s1, c1, e1, r1, a1, d1, -⟩ := near_probe hE hs ha h0
      obtain ⟨s2, c2, j, hj, e2, r2, y2, d2⟩ := near_open hE r1 a1 (call := .sequence) rfl pseq hv
      obtain ⟨s3, c3, e3, r3, y3, d3⟩ := g s2 c2 (j ++ rest) r2 y2
      refine ⟨s3, c3, Conv.succ (fun f => by rw [dec]) (Conv.bind e1 (Conv.bind e2 (Conv.bind e3 ?_))), r3,
        ready_absorb hj y3, d3.trans (d2.trans d1)⟩
      exact Conv.pure _
  | .arrayNull =>
    cases hn with
    | null hv => exact yields_null hE hv (fun f s => by rw [dec]) (fun f s => rfl)
  | .array (os := os) (rest := more) hl hi =>
    cases hn with
    | seq h0 hv hitems =>
      obtain ⟨k', hk', g⟩ := each_array hE (items_yields hi _ hitems) more _ k (k + 1) [] (Nat.lt_succ_self k) (by simpa using hl)
      refine ⟨k', by omega, fun s c rest hs ha => ?_⟩
      obtain ⟨s1, c1, e1, r1, a1, d1, -⟩ := near_probe hE hs ha h0
      obtain ⟨s2, c2, j, hj, e2, r2, y2, d2⟩ := near_open hE r1 a1 (call := .sequence) rfl pseq hv
      obtain ⟨s3, c3, e3, r3, y3, d3⟩ := g s2 c2 (j ++ rest) r2 y2
      refine ⟨s3, c3, Conv.succ (fun f => by rw [dec]) (Conv.bind e1 (Conv.bind e2 (Conv.bind e3 ?_))), r3,
        ready_absorb hj y3, d3.trans (d2.trans d1)⟩
      exact Conv.pure _
  | .ptrNull =>
    cases hn with
    | null hv => exact yields_null hE hv (fun f s => by rw [dec]) (fun f s => rfl)
  | .ptrOld hd hm =>
    obtain ⟨k', hk', g⟩ := means_yields hm n hn k
    refine ⟨k', hk', fun s c rest hs ha => ?_⟩
    obtain ⟨s1, c1, e1, r1, a1, d1, -⟩ := near_probe hE hs ha (hn.solid hd)
    obtain ⟨s2, c2, e2, r2, y2, d2⟩ := g s1 c1 rest r1 a1
    refine ⟨s2, c2, Conv.succ (fun f => by rw [dec]) (Conv.bind e1 (Conv.bind e2 ?_)), r2, y2, d2.trans d1⟩
    exact Conv.pure _
  | .ptrNew hd hz hm =>
    obtain ⟨k', hk', g⟩ := means_yields hm n hn k
    refine ⟨k', hk', fun s c rest hs ha => ?_⟩
    obtain ⟨s1, c1, e1, r1, a1, d1, -⟩ := near_probe hE hs ha (hn.solid hd)
    obtain ⟨s2, c2, e2, r2, y2, d2⟩ := g s1 c1 rest r1 a1
    refine ⟨s2, c2, Conv.succ (fun f => by rw [dec]) (Conv.bind e1 (Conv.bind hz.conv (Conv.bind e2 ?_))), r2, y2,
      d2.trans d1⟩
    exact Conv.pure _
  | .mapNull =>
    cases hn with
    | null hv => exact yields_null hE hv (fun f s => by rw [dec]) (fun f s => rfl)
  | .mapEmpty ho =>
    cases hn with
    | map h0 hv hsize hitems =>
      refine ⟨k + 1, by omega, fun s c rest hs ha => ?_⟩
      obtain ⟨s1, c1, e1, r1, a1, d1, -⟩ := near_probe hE hs ha h0
      obtain ⟨s2, c2, j, hj, e2, r2, y2, d2⟩ := near_open hE r1 a1 (call := .mapping) rfl pmap hv
      have hi : V.items n = [] := by
        generalize V.items n = l at hitems
        cases hitems
        rfl
      rw [hi] at y2
      obtain ⟨s3, e3, r3⟩ := read_items hE r2 (Nat.lt_succ_self k) y2
      refine ⟨s3, c2, Conv.succ (fun f => by rw [dec]) (Conv.bind e1 (Conv.bind e2 ?_)), r3, ready_absorb hj y2, d2.trans d1⟩
      simp only [ho, toSize, hsize.mpr hi, beq_self_eq_true, Bool.and_self, if_true]
      refine Conv.succ (fun f => by rw [decEntries]) (Conv.bind e3 ?_)
      exact Conv.pure _
  | .map hne hp has =>
    cases hn with
    | map h0 hv hsize hitems =>
      obtain ⟨k', hk', g⟩ := each_pair hE (pairs_yields hp _ hitems) k (k + 1) [] (Nat.lt_succ_self k)
      refine ⟨k', by omega, fun s c rest hs ha => ?_⟩
      obtain ⟨s1, c1, e1, r1, a1, d1, -⟩ := near_probe hE hs ha h0
      obtain ⟨s2, c2, j, hj, e2, r2, y2, d2⟩ := near_open hE r1 a1 (call := .mapping) rfl pmap hv
      obtain ⟨s3, c3, e3, r3, y3, d3⟩ := g s2 c2 (j ++ rest) r2 y2
      refine ⟨s3, c3, Conv.succ (fun f => by rw [dec]) (Conv.bind e1 (Conv.bind e2 ?_)), r3,
        ready_absorb hj y3, d3.trans (d2.trans d1)⟩
      have hcond : ((P.omitempty || om) && toSize (.coll (V.size n) : Out N) == 0) = false := by
        rw [Bool.and_eq_false_iff]
        by_cases ho : (P.omitempty || om) = true
        · right
          simp only [toSize, beq_eq_false_iff_ne]
          intro h0
          rw [hsize.mp h0] at hitems
          cases hitems
          exact hne ho rfl
        · left
          simpa using ho
      simp only [hcond, Bool.false_eq_true, if_false]
      rw [assigned_map has] at e3
      exact e3
  | .struct hl hf =>
    cases hn with
    | map h0 hv hsize hitems =>
      obtain ⟨k', hk', g⟩ := each_field hE hV.skip (fields_yields hf _ hitems) k (k + 1) (Nat.lt_succ_self k)
      refine ⟨k', by omega, fun s c rest hs ha => ?_⟩
      obtain ⟨s1, c1, e1, r1, a1, d1, -⟩ := near_probe hE hs ha h0
      obtain ⟨s2, c2, j, hj, e2, r2, y2, d2⟩ := near_open hE r1 a1 (call := .mapping) rfl pmap hv
      obtain ⟨s3, c3, e3, r3, y3, d3⟩ := g s2 c2 (j ++ rest) r2 y2
      refine ⟨s3, c3, Conv.succ (fun f => by rw [dec]) (Conv.bind e1 ?_), r3, ready_absorb hj y3, d3.trans (d2.trans d1)⟩
      simp only [toBool, Bool.false_eq_true, if_false, Res.bind_ok, Val.members]
      exact Conv.bind e2 (Conv.bind e3 (Conv.pure _))

theorem items_yields {t : Ty} {om : Bool} {os : List Val} {ds : List Doc} {vs : List Val} (h : MeansItems M L P t om os ds vs) :
    ∀ ns, DisplaysItems V ds ns → Each E V R L P t om os ns vs := by
  intro ns hn
  match h with
  | .nil => cases hn; exact .nil
  | .cons h1 h2 =>
    cases hn with
    | cons a b =>
      cases a with
      | mk hl hi => exact .cons hl (means_yields h1 _ hi) (items_yields h2 _ b)

theorem pairs_yields {t u : Ty} {om : Bool} {es : List (Doc × Doc)} {kvs : List (Val × Val)}
    (h : MeansPairs M L P t u om es kvs) : ∀ ns, DisplaysEntries V es ns → EachPair E V R L P t u om ns kvs := by
  intro ns hn
  match h with
  | .nil => cases hn; exact .nil
  | .cons hk hv h1 h2 h3 =>
    obtain ⟨a, b, ns', ia, ib, he, hent⟩ := enters hn
    exact .cons hent hk hv (means_yields h1 _ ia) (means_yields h2 _ ib) (pairs_yields h3 _ he)

theorem fields_yields {fs : List Field} {vs : List Val} {es : List (Doc × Doc)} {vs' : List Val}
    (h : MeansFields M L P fs vs es vs') : ∀ ns, DisplaysEntries V es ns → EachField E V R L P fs vs ns vs' := by
  intro ns hn
  match h with
  | .nil => cases hn; exact .nil
  | .null h1 =>
    obtain ⟨a, b, ns', ia, ib, he, hent⟩ := enters hn
    cases ib with
    | null hb =>
      cases ia with
      | scalar _ hs _ _ _ => exact .null hent hs hb (fields_yields h1 _ he)
  | .field hf ho hd h1 h2 =>
    obtain ⟨a, b, ns', ia, ib, he, hent⟩ := enters hn
    have hnull := ib.solid hd
    have hg := means_yields h1 _ ib
    cases ia with
    | scalar _ hs _ _ _ =>
      refine .field hent hs hnull (branch_field hf) ?_ (fields_yields h2 _ he)
      rw [List.getD, ho]
      exact hg
  | .unknown hu hk hd h1 =>
    obtain ⟨a, b, ns', ia, ib, he, hent⟩ := enters hn
    have hnull := ib.solid hd
    cases ia with
    | scalar _ hs _ _ _ => exact .unknown hent hs hnull (branch_none hk) hu (fields_yields h1 _ he)
end

end Main

end Verif.GenCode
