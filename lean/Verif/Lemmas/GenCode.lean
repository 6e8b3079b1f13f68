import Verif.Lemmas.DecoderCursor
import Verif.Spec.GenValues
import Verif.Spec.Protocol
import Verif.Props.Scalars

/-!
Generated decoders read what generated encoders write.
-/

namespace Verif.GenCode

open Verif.Decoder Verif.DecoderCursor

variable {σ N : Type}

/-- The engine does what the cursor does, on related states. -/
def Refines (E : Engine σ N) (V : View N) (R : σ → Cursor N → Prop) : Prop :=
  ∀ s c call o c', R s c → Step V c call o c' → ∃ s', Conv (fun f => E.step f s call) (o, s') ∧ R s' c'

/-- The expecters of the calls in generated code which read a value. -/
def plain (e : Expecter) : Prop := e ≠ .raw ∧ e ≠ .skip ∧ e ≠ .any

/-- The next node is `n`, and `rest` is left then. -/
structure At (V : View N) (c : Cursor N) (k : Nat) (n : N) (rest : List (Frame N)) : Prop where
  fatal : c.fatal = none
  sizes : c.sizes.length = k
  current : ∀ e, plain e → Current V e c (some (n, V.items n, rest))

variable {E : Engine σ N} {V : View N} {R : σ → Cursor N → Prop}

section Blocks

variable {s : σ} {c : Cursor N} {k : Nat} {n : N} {rest : List (Frame N)}

theorem read_leaf (hE : Refines E V R) (hs : R s c) (ha : At V c k n rest) {call : Call} {e : Expecter} {o : Out N}
    (he : expecterOf call = some e) (hp : plain e) (hop : opening call = false) (hv : V.verdict e n = .whole)
    (ho : valueOf V n call = .ok o) :
    ∃ s' c', Conv (fun f => E.step f s call) (o, s') ∧ R s' c' ∧ Ready c' k k rest ∧ c'.denied = c.denied := by
  have hst := Step.read (V := V) he ha.fatal (ha.current e hp)
  simp only [react, hv, ho] at hst
  obtain ⟨s', h1, h2⟩ := hE _ _ _ _ _ hs hst
  refine ⟨s', _, h1, h2, ⟨ha.fatal, rfl, ?_, [], .nil, rfl⟩, rfl⟩
  simpa [addSize, hop] using ha.sizes

theorem plain_null : plain .null := ⟨by decide, by decide, by decide⟩

theorem read_null (hE : Refines E V R) (hs : R s c) (ha : At V c k n rest) (hv : V.verdict .null n = .whole) :
    ∃ s' c', Conv (fun f => E.step f s .tryNull) (.bool true, s') ∧ R s' c' ∧ Ready c' k k rest ∧
      c'.denied = c.denied :=
  read_leaf hE hs ha (call := .tryNull) rfl plain_null rfl hv rfl

theorem read_probe (hE : Refines E V R) (hs : R s c) (ha : At V c k n rest) (hv : V.verdict .null n = .deny) :
    ∃ s' c', Conv (fun f => E.step f s .tryNull) (.bool false, s') ∧ R s' c' ∧ At V c' k n rest ∧
      c'.denied = c.denied := by
  have hst := Step.read (V := V) (call := .tryNull) rfl ha.fatal (ha.current .null plain_null)
  simp only [react, hv, if_true] at hst
  obtain ⟨s', h1, h2⟩ := hE _ _ _ _ _ hs hst
  exact ⟨s', _, h1, h2, ⟨ha.fatal, ha.sizes, fun e _ => .pending rfl⟩, rfl⟩

theorem read_open (hE : Refines E V R) (hs : R s c) (ha : At V c k n rest) {call : Call} {e : Expecter}
    (he : expecterOf call = some e) (hp : plain e) (hv : V.verdict e n = .opens) :
    ∃ s' c', Conv (fun f => E.step f s call) (.coll (V.size n), s') ∧ R s' c' ∧
      Ready c' (k + 1) (k + 1) ((some k, V.items n) :: rest) ∧ c'.denied = c.denied := by
  have hst := Step.read (V := V) he ha.fatal (ha.current e hp)
  simp only [react, hv, ha.sizes] at hst
  obtain ⟨s', h1, h2⟩ := hE _ _ _ _ _ hs hst
  exact ⟨s', _, h1, h2, ⟨ha.fatal, rfl, by simp [ha.sizes], [], .nil, rfl⟩, rfl⟩

theorem read_items (hE : Refines E V R) (hs : R s c) {h lo : Nat} {ns : List N} {fs : List (Frame N)} (hl : h < lo)
    (hr : Ready c k lo ((some h, ns) :: fs)) :
    ∃ s', Conv (fun f => E.step f s (.hasItems h)) (.bool (!ns.isEmpty), s') ∧ R s' c := by
  obtain ⟨j, hj, hfr⟩ := hr.frames
  have hst := Step.hasItems (V := V) (c := c) (k := h)
  rw [hfr, left_empties hl hj] at hst
  exact hE _ _ _ _ _ hs hst

theorem at_value {lo : Nat} {h : Option Nat} {ns : List N} {fs : List (Frame N)} (hr : Ready c k lo ((h, n :: ns) :: fs))
    (hl : ∀ e, plain e → V.layer e n = none) : At V c k n ((h, ns) :: fs) := by
  obtain ⟨j, hj, hfr⟩ := hr.frames
  refine ⟨hr.fatal, hr.sizes, fun e he => .next hr.pending ?_⟩
  rw [hfr]
  exact next_empties hj (.take (hl e he))

theorem at_key {lo : Nat} {h : Option Nat} {a b : N} {ns : List N} {fs : List (Frame N)}
    (hr : Ready c k lo ((h, n :: ns) :: fs)) (hn : ∀ e, plain e → V.layer e n = some [a, b])
    (hl : ∀ e, plain e → V.layer e a = none) : At V c k a ((none, [b]) :: (h, ns) :: fs) := by
  obtain ⟨j, hj, hfr⟩ := hr.frames
  refine ⟨hr.fatal, hr.sizes, fun e he => .next hr.pending ?_⟩
  rw [hfr]
  exact next_empties hj (.enter (hn e he) (.take (hl e he)))

end Blocks

/-! ### Documents of values -/

open Verif.Protocol

/-- A node which shows a scalar. -/
def ShowsScalar (V : View N) (n : N) : Inserter.Scalar → Prop
  | .integer v => V.verdict .integer n = .whole ∧ V.text n = Schema.fromInteger v
  | .unsigned v => V.verdict .integer n = .whole ∧ V.text n = Schema.fromUnsignedInteger v
  | .boolean b => V.verdict .boolean n = .whole ∧ V.text n = Schema.fromBoolean b
  | .float t => V.verdict .float n = .whole ∧ V.text n = t
  | .string s => V.verdict .string n = .whole ∧ V.text n = s
  | .timestamp t => V.verdict .timestamp n = .whole ∧ V.text n = t
  | .null => V.verdict .null n = .whole

/-- A node which is a value, and null only if it has to be. -/
structure Solid (V : View N) (n : N) (null : Bool) : Prop where
  layer : ∀ e, plain e → V.layer e n = none
  null : null = false → V.verdict .null n = .deny

variable {ν : Type}

mutual
/-- A node which shows an inserted value. -/
inductive Shows (V : View N) : Value ν → N → Prop
  | scalar {x n} : Solid V n (x = .null) → ShowsScalar V n x → Shows V (.scalar x) n
  | seq {vs n} : Solid V n false → V.verdict .sequence n = .opens → ShowsItems V vs (V.items n) → Shows V (.seq vs) n
  | map {es n} : Solid V n false → V.verdict .mapping n = .opens → (V.size n = 0 → V.items n = []) →
      ShowsEntries V es (V.items n) → Shows V (.map es) n
/-- Nodes which show values. -/
inductive ShowsItems (V : View N) : Values ν → List N → Prop
  | nil : ShowsItems V .nil []
  | cons {v vs n ns} : Shows V v n → ShowsItems V vs ns → ShowsItems V (.cons v vs) (n :: ns)
/-- Nodes which show the entries of a mapping: one after the other, or with a node for an entry. -/
inductive ShowsEntries (V : View N) : Entries ν → List N → Prop
  | nil : ShowsEntries V .nil []
  | two {k v es a b ns} : Shows V k a → Shows V v b → ShowsEntries V es ns → ShowsEntries V (.cons k v es) (a :: b :: ns)
  | entry {k v es n a b ns} : (∀ e, plain e → V.layer e n = some [a, b]) → Shows V k a → Shows V v b →
      ShowsEntries V es ns → ShowsEntries V (.cons k v es) (n :: ns)
end

/-- The null value. -/
def isNullValue : Value ν → Bool
  | .scalar .null => true
  | _ => false

theorem Shows.solid {w : Value ν} {n : N} (h : Shows V w n) : Solid V n (isNullValue w) := by
  cases h with
  | @scalar x _ h _ =>
    refine ⟨h.layer, fun hn => h.null ?_⟩
    cases x <;> simp_all [isNullValue]
  | seq h _ _ => exact h
  | map h _ _ _ => exact h

theorem Shows.null {w : Value ν} {n : N} (h : Shows V w n) (hw : isNullValue w = true) : V.verdict .null n = .whole := by
  cases h with
  | @scalar x _ _ h =>
    cases x with
    | null => exact h
    | _ => cases hw
  | _ => cases hw

/-! ### Zero values -/

theorem IsZero.unique {L : Lib} {P : Package} {t : Ty} {v w : Val} (hv : IsZero L P t v) (hw : IsZero L P t w) : v = w := by
  induction hv generalizing w with
  | array _ ih =>
    cases hw with
    | array h' => rw [ih h']
  | struct hl _ ih =>
    cases hw with
    | struct hl' h' =>
      congr 1
      apply List.ext_getElem (by rw [hl, hl'])
      intro i h1 h2
      rename_i id vs _ _
      have hf : (P.fields id)[i]? = some (P.fields id)[i] := List.getElem?_eq_getElem (by omega)
      exact ih i _ _ hf (List.getElem?_eq_getElem h1) (h' i _ _ hf (List.getElem?_eq_getElem h2))
  | _ => cases hw; rfl

theorem zeros_conv {L : Lib} {P : Package} : ∀ (ds : List Field) (vs : List Val), vs.length = ds.length →
    (∀ (i : Nat) d v, ds[i]? = some d → vs[i]? = some v → Conv (fun f => zero L P f d.ty) v) →
    Conv (fun f => zeros L P f ds) vs
  | [], [], _, _ => Conv.succ (g' := fun _ => Res.ok []) (fun f => by rw [zeros]) (Conv.pure _)
  | [], _ :: _, h, _ => nomatch h
  | _ :: _, [], h, _ => nomatch h
  | d :: ds, v :: vs, hl, h => by
    have h1 := h 0 d v rfl rfl
    have h2 := zeros_conv ds vs (by simpa using hl) (fun i d v hd hv => h (i + 1) d v hd hv)
    refine Conv.succ (fun f => by rw [zeros]) (Conv.bind h1 (Conv.bind h2 (Conv.pure (v :: vs))))

theorem IsZero.conv {L : Lib} {P : Package} {t : Ty} {v : Val} (hv : IsZero L P t v) : Conv (fun f => zero L P f t) v := by
  induction hv with
  | array _ ih => exact Conv.succ (fun f => by rw [zero]) (Conv.bind ih (Conv.pure _))
  | struct hl _ ih =>
    exact Conv.succ (fun f => by rw [zero]) (Conv.bind (zeros_conv _ _ hl ih) (Conv.pure _))
  | _ => exact Conv.succ (fun f => by rw [zero]) (Conv.pure _)

/-! ### Reading back -/

variable (E V R) (L : Lib) (P : Package)

/-- The code for a variable of type `t` with the value `z` reads the value `v` from the node `n`. -/
def Gives (k : Nat) (n : N) (t : Ty) (om : Bool) (z v : Val) : Prop :=
  ∃ k', k ≤ k' ∧ ∀ s c rest, R s c → At V c k n rest →
    ∃ s' c', Conv (fun f => dec E L P f t om z s k) (v, s', k') ∧ R s' c' ∧ Ready c' k' k rest ∧ c'.denied = c.denied

/-- The value `v` is read back from every node which shows `w`. -/
structure Good (t : Ty) (om : Bool) (v : Val) (w : Value ν) : Prop where
  null : isNullValue w = true ↔ v = .nil
  zero : v = .nil → ∀ z, IsZero L P t z → z = .nil
  gives : ∀ n, Shows V w n → ∀ k z, IsZero L P t z → Gives E V R L P k n t om z v

variable {E V R} {L P}

theorem Good.solid {t : Ty} {om : Bool} {v : Val} {w : Value ν} (hg : Good E V R L P t om v w) (hv : v ≠ .nil) {n : N}
    (hs : Shows V w n) : Solid V n false := by
  have := hs.solid
  have hw : isNullValue w = false := by
    rw [Bool.eq_false_iff]
    exact fun h => hv (hg.null.mp h)
  rwa [hw] at this

/-- A value read by one call. -/
theorem gives_leaf (hE : Refines E V R) {k : Nat} {n : N} {t : Ty} {om : Bool} {z v : Val} {call : Call} {e : Expecter}
    {o : Out N} {v' : Out N → Val} (he : expecterOf call = some e) (hp : plain e) (hop : opening call = false)
    (hv : V.verdict e n = .whole) (ho : valueOf V n call = .ok o)
    (hd : ∀ f s, dec E L P (f + 1) t om z s k = (do
      let p ← E.step f s call
      .ok (v' p.1, p.2, k))) (hvo : v' o = v) : Gives E V R L P k n t om z v := by
  refine ⟨k, Nat.le_refl _, fun s c rest hs ha => ?_⟩
  obtain ⟨s', c', h1, h2, h3, h4⟩ := read_leaf hE hs ha he hp hop hv ho
  refine ⟨s', c', Conv.succ (fun f => hd f s) (Conv.bind h1 ?_), h2, h3, h4⟩
  subst hvo
  exact Conv.pure _

/-- A null read by code which begins with `TryNull`. -/
theorem gives_null (hE : Refines E V R) {k : Nat} {n : N} {t : Ty} {om : Bool} {z : Val}
    (hv : V.verdict .null n = .whole) {g : Nat → Out N × σ → Res (Val × σ × Nat)}
    (hd : ∀ f s, dec E L P (f + 1) t om z s k = (E.step f s .tryNull >>= g f))
    (hg : ∀ f s, g f (.bool true, s) = .ok (.nil, s, k)) : Gives E V R L P k n t om z .nil := by
  refine ⟨k, Nat.le_refl _, fun s c rest hs ha => ?_⟩
  obtain ⟨s', c', h1, h2, h3, h4⟩ := read_null hE hs ha hv
  refine ⟨s', c', Conv.succ (fun f => hd f s) (Conv.bind h1 ?_), h2, h3, h4⟩
  exact Conv.congr (fun f => hg f s') (Conv.pure _)

/-- The values are read back, one by one. -/
inductive GoodItems (E : Engine σ N) (V : View N) (R : σ → Cursor N → Prop) (L : Lib) (P : Package) (t : Ty) (om : Bool) :
    List Val → Values ν → Prop
  | nil : GoodItems E V R L P t om [] .nil
  | cons {v vs w ws} : Good E V R L P t om v w → GoodItems E V R L P t om vs ws →
      GoodItems E V R L P t om (v :: vs) (.cons w ws)

theorem items_good (hE : Refines E V R) {t : Ty} {om : Bool} {z : Val} (hz : IsZero L P t z) {vs : List Val}
    {ws : Values ν} (hg : GoodItems E V R L P t om vs ws) :
    ∀ (ns : List N), ShowsItems V ws ns → ∀ (h k : Nat) (acc : List Val), h < k → ∃ k', k ≤ k' ∧
      ∀ s c fs, R s c → Ready c k (h + 1) ((some h, ns) :: fs) →
      ∃ s' c', Conv (fun f => decItems E L P f t om h acc s k) (acc ++ vs, s', k') ∧ R s' c' ∧
        Ready c' k' (h + 1) ((some h, []) :: fs) ∧ c'.denied = c.denied := by
  induction hg with
  | nil =>
    intro ns hns h k acc hk
    cases hns
    refine ⟨k, Nat.le_refl _, fun s c fs hs hr => ?_⟩
    obtain ⟨s', h1, h2⟩ := read_items hE hs (Nat.lt_succ_self h) hr
    refine ⟨s', c, Conv.succ (fun f => by rw [decItems]) (Conv.bind h1 ?_), h2, hr, rfl⟩
    rw [List.append_nil]
    exact Conv.pure _
  | @cons v vs w ws hv _ ih =>
    intro ns hns h k acc hk
    cases hns with
    | @cons _ _ n ns hn hns =>
      obtain ⟨k1, hk1, g1⟩ := hv.gives n hn k z hz
      obtain ⟨k2, hk2, g2⟩ := ih ns hns h k1 (acc ++ [v]) (by omega)
      refine ⟨k2, by omega, fun s c fs hs hr => ?_⟩
      obtain ⟨s', h1, h2⟩ := read_items hE hs (Nat.lt_succ_self h) hr
      obtain ⟨s1, c1, h3, h4, h5, h6⟩ := g1 s' c ((some h, ns) :: fs) h2 (at_value hr hn.solid.layer)
      obtain ⟨s2, c2, h7, h8, h9, h10⟩ := g2 s1 c1 fs h4 (h5.mono hk)
      refine ⟨s2, c2, Conv.succ (fun f => by rw [decItems]) (Conv.bind h1 (Conv.bind hz.conv (Conv.bind h3 ?_))), h8, h9,
        h10.trans h6⟩
      rw [List.append_assoc] at h7
      exact h7

theorem set_append_replicate (done : List Val) (v z : Val) (m : Nat) :
    (done ++ List.replicate (m + 1) z).set done.length v = (done ++ [v]) ++ List.replicate m z := by
  rw [List.set_append_right _ _ (Nat.le_refl _)]
  simp [List.replicate_succ]

theorem array_good (hE : Refines E V R) {t : Ty} {om : Bool} {z : Val} (hz : IsZero L P t z) {vs : List Val}
    {ws : Values ν} (hg : GoodItems E V R L P t om vs ws) :
    ∀ (ns : List N), ShowsItems V ws ns → ∀ (len h k m : Nat) (done : List Val), h < k → vs.length ≤ m →
      done.length + vs.length ≤ len → ∃ k', k ≤ k' ∧
      ∀ s c fs, R s c → Ready c k (h + 1) ((some h, ns) :: fs) →
      ∃ s' c', Conv (fun f => decArray E L P f len t om h done.length (done ++ List.replicate m z) s k)
          (done ++ vs ++ List.replicate (m - vs.length) z, s', k') ∧ R s' c' ∧
        Ready c' k' (h + 1) ((some h, []) :: fs) ∧ c'.denied = c.denied := by
  induction hg with
  | nil =>
    intro ns hns len h k m done hk _ _
    cases hns
    refine ⟨k, Nat.le_refl _, fun s c fs hs hr => ?_⟩
    obtain ⟨s', h1, h2⟩ := read_items hE hs (Nat.lt_succ_self h) hr
    refine ⟨s', c, Conv.succ (fun f => by rw [decArray]) (Conv.bind h1 ?_), h2, hr, rfl⟩
    rw [List.append_nil]
    exact Conv.pure _
  | @cons v vs w ws hv _ ih =>
    intro ns hns len h k m done hk hm hl
    obtain ⟨m, rfl⟩ : ∃ m', m = m' + 1 := ⟨m - 1, by simp at hm; omega⟩
    simp only [List.length_cons] at hm hl
    cases hns with
    | @cons _ _ n ns hn hns =>
      obtain ⟨k1, hk1, g1⟩ := hv.gives n hn k z hz
      obtain ⟨k2, hk2, g2⟩ := ih ns hns len h k1 m (done ++ [v]) (by omega) (by omega) (by simp; omega)
      refine ⟨k2, by omega, fun s c fs hs hr => ?_⟩
      obtain ⟨s', h1, h2⟩ := read_items hE hs (Nat.lt_succ_self h) hr
      obtain ⟨s1, c1, h3, h4, h5, h6⟩ := g1 s' c ((some h, ns) :: fs) h2 (at_value hr hn.solid.layer)
      obtain ⟨s2, c2, h7, h8, h9, h10⟩ := g2 s1 c1 fs h4 (h5.mono hk)
      refine ⟨s2, c2, Conv.succ (fun f => by rw [decArray]) (Conv.bind h1 ?_), h8, h9, h10.trans h6⟩
      have hlt : decide (done.length < len) = true := decide_eq_true (by omega)
      simp only [List.isEmpty_cons, Bool.not_false, toBool, hlt, Bool.and_self, if_true]
      refine Conv.bind (x := (v, s1, k1)) ?_ ?_
      · have : (done ++ List.replicate (m + 1) z).getD done.length .nil = z := by
          simp [List.getD, List.replicate_succ]
        rw [this]
        exact h3
      · simp only [set_append_replicate]
        rw [List.length_append] at h7
        simpa using h7

mutual
theorem same_iff : ∀ (a b : Val), same a b = true ↔ a = b
  | .str a, b => by cases b <;> simp [same]
  | .bool a, b => by cases b <;> simp [same]
  | .int a, b => by cases b <;> simp [same]
  | .uint a, b => by cases b <;> simp [same]
  | .float a, b => by cases b <;> simp [same]
  | .text a, b => by cases b <;> simp [same]
  | .nil, b => by cases b <;> simp [same]
  | .bytes a, b => by cases b <;> simp [same]
  | .slice a, b => by cases b <;> simp [same, sames_iff a]
  | .array a, b => by cases b <;> simp [same, sames_iff a]
  | .ptr a, b => by cases b <;> simp [same, same_iff a]
  | .entry a b, c => by cases c <;> simp [same, same_iff a, same_iff b]
  | .map a, b => by cases b <;> simp [same, sames_iff a]
  | .struct a, b => by cases b <;> simp [same, sames_iff a]
theorem sames_iff : ∀ (a b : List Val), sames a b = true ↔ a = b
  | [], b => by cases b <;> simp [sames]
  | a :: as, b => by cases b <;> simp [sames, same_iff a, sames_iff as]
end

/-- The entries of a map. -/
def entriesOf (kvs : List (Val × Val)) : List Val := kvs.map (fun p => .entry p.1 p.2)

theorem putEntry_new {k v : Val} : ∀ {kvs : List (Val × Val)}, k ∉ kvs.map Prod.fst →
    putEntry k v (entriesOf kvs) = entriesOf (kvs ++ [(k, v)])
  | [], _ => rfl
  | (k', v') :: kvs, h => by
    simp only [List.map_cons, List.mem_cons, not_or] at h
    have hs : same k' k = false := by
      rw [Bool.eq_false_iff]
      exact fun hs => h.1 ((same_iff _ _).mp hs).symm
    have := putEntry_new (v := v) h.2
    simp only [entriesOf, List.map_cons, List.cons_append] at this ⊢
    rw [putEntry, hs, this]
    simp

/-- The nodes of the next key and its value, and how the cursor gets there. -/
theorem entry_nodes {wk wv : Value ν} {es : Entries ν} {ns : List N} (hs : ShowsEntries V (.cons wk wv es) ns) :
    ns.isEmpty = false ∧ ∃ a b ns', Shows V wk a ∧ Shows V wv b ∧ ShowsEntries V es ns' ∧
      ∀ (c : Cursor N) k lo h fs, Ready c k lo ((h, ns) :: fs) → ∃ rest1, At V c k a rest1 ∧
      ∀ c1 k1 lo1, Ready c1 k1 lo1 rest1 → ∃ rest2, At V c1 k1 b rest2 ∧
        ∀ c2 k2 lo2 lo', lo' ≤ lo2 → Ready c2 k2 lo2 rest2 → Ready c2 k2 lo' ((h, ns') :: fs) := by
  cases hs with
  | two ha hb he =>
    refine ⟨rfl, _, _, _, ha, hb, he, fun c k lo h fs hr => ⟨_, at_value hr ha.solid.layer, fun c1 k1 lo1 h1 => ?_⟩⟩
    exact ⟨_, at_value h1 hb.solid.layer, fun c2 k2 lo2 lo' hl h2 => h2.mono hl⟩
  | entry hl ha hb he =>
    refine ⟨rfl, _, _, _, ha, hb, he, fun c k lo h fs hr => ⟨_, at_key hr hl ha.solid.layer, fun c1 k1 lo1 h1 => ?_⟩⟩
    exact ⟨_, at_value h1 hb.solid.layer, fun c2 k2 lo2 lo' hl h2 => h2.drop hl⟩

/-- The entries are read back, one by one. -/
inductive GoodEntries (E : Engine σ N) (V : View N) (R : σ → Cursor N → Prop) (L : Lib) (P : Package) (t u : Ty) (om : Bool) :
    List (Val × Val) → Entries ν → Prop
  | nil : GoodEntries E V R L P t u om [] .nil
  | cons {k v kvs wk wv es} : Good E V R L P t om k wk → Good E V R L P u om v wv →
      GoodEntries E V R L P t u om kvs es → GoodEntries E V R L P t u om ((k, v) :: kvs) (.cons wk wv es)

theorem entries_good (hE : Refines E V R) {t u : Ty} {om : Bool} {zk zv : Val} (hzk : IsZero L P t zk)
    (hzv : IsZero L P u zv) {kvs : List (Val × Val)} {es : Entries ν} (hg : GoodEntries E V R L P t u om kvs es) :
    ∀ (ns : List N), ShowsEntries V es ns → ∀ (h k : Nat) (acc : List (Val × Val)), h < k →
      ((acc ++ kvs).map Prod.fst).Nodup → ∃ k', k ≤ k' ∧
      ∀ s c fs, R s c → Ready c k (h + 1) ((some h, ns) :: fs) →
      ∃ s' c', Conv (fun f => decEntries E L P f t u om h (.map (entriesOf acc)) s k)
          (.map (entriesOf (acc ++ kvs)), s', k') ∧ R s' c' ∧
        Ready c' k' (h + 1) ((some h, []) :: fs) ∧ c'.denied = c.denied := by
  induction hg with
  | nil =>
    intro ns hns h k acc hk _
    cases hns
    refine ⟨k, Nat.le_refl _, fun s c fs hs hr => ?_⟩
    obtain ⟨s', h1, h2⟩ := read_items hE hs (Nat.lt_succ_self h) hr
    refine ⟨s', c, Conv.succ (fun f => by rw [decEntries]) (Conv.bind h1 ?_), h2, hr, rfl⟩
    rw [List.append_nil]
    exact Conv.pure _
  | @cons key v kvs wk wv es hgk hgv _ ih =>
    intro ns hns h k acc hk hnd
    obtain ⟨hne, a, b, ns', ha, hb, hes, hnodes⟩ := entry_nodes hns
    obtain ⟨k1, hk1, g1⟩ := hgk.gives a ha k zk hzk
    obtain ⟨k2, hk2, g2⟩ := hgv.gives b hb k1 zv hzv
    obtain ⟨k3, hk3, g3⟩ := ih ns' hes h k2 (acc ++ [(key, v)]) (by omega) (by simpa using hnd)
    refine ⟨k3, by omega, fun s c fs hs hr => ?_⟩
    obtain ⟨s0, h1, h2⟩ := read_items hE hs (Nat.lt_succ_self h) hr
    obtain ⟨rest1, hat1, hn1⟩ := hnodes c k _ _ _ hr
    obtain ⟨s1, c1, e1, r1, y1, d1⟩ := g1 s0 c rest1 h2 hat1
    obtain ⟨rest2, hat2, hn2⟩ := hn1 c1 k1 _ y1
    obtain ⟨s2, c2, e2, r2, y2, d2⟩ := g2 s1 c1 rest2 r1 hat2
    obtain ⟨s3, c3, e3, r3, y3, d3⟩ := g3 s2 c2 fs r2 (hn2 c2 k2 k1 (h + 1) (by omega) y2)
    refine ⟨s3, c3, Conv.succ (fun f => by rw [decEntries]) (Conv.bind h1 ?_), r3, y3, d3.trans (d2.trans d1)⟩
    simp only [hne, Bool.not_false, toBool, if_true]
    refine Conv.bind hzk.conv (Conv.bind hzv.conv (Conv.bind e1 (Conv.bind e2 ?_)))
    have hkey : key ∉ acc.map Prod.fst := by
      intro hmem
      rw [List.map_append, List.nodup_append] at hnd
      exact hnd.2.2 key hmem key (by simp) rfl
    have := putEntry_new (v := v) hkey
    simp only [this]
    rw [List.append_assoc] at e3
    exact e3

/-! ### Structs -/

theorem branch_at : ∀ {pre fs : List Field} {f : Field}, ((pre ++ f :: fs).map Field.name).Nodup →
    branch f.name (pre ++ f :: fs) = some (pre.length, f)
  | [], fs, f, _ => by simp [branch]
  | g :: pre, fs, f, h => by
    simp only [List.cons_append, List.map_cons, List.nodup_cons] at h
    have hne : g.name ≠ f.name := by
      intro he
      exact h.1 (by rw [he]; simp)
    rw [List.cons_append, branch, if_neg hne, branch_at h.2]
    rfl

/-- The fields are read back or left out, one by one. -/
inductive GoodFields (E : Engine σ N) (V : View N) (R : σ → Cursor N → Prop) (L : Lib) (P : Package) :
    List Field → List Val → Entries ν → Prop
  | nil : GoodFields E V R L P [] [] .nil
  | omitted {f fs v vs es} : IsZero L P f.ty v → GoodFields E V R L P fs vs es →
      GoodFields E V R L P (f :: fs) (v :: vs) es
  | kept {f fs v vs w es} : Good E V R L P f.ty f.omitempty v w → GoodFields E V R L P fs vs es →
      GoodFields E V R L P (f :: fs) (v :: vs) (.cons (.scalar (.string f.name)) w es)

/-- The zero values of fields. -/
inductive Zeros (L : Lib) (P : Package) : List Field → List Val → Prop
  | nil : Zeros L P [] []
  | cons {f fs z zs} : IsZero L P f.ty z → Zeros L P fs zs → Zeros L P (f :: fs) (z :: zs)

theorem fields_good (hE : Refines E V R) {all : List Field} (hnd : (all.map Field.name).Nodup) {fs : List Field}
    {vs : List Val} {es : Entries ν} (hg : GoodFields E V R L P fs vs es) :
    ∀ (ns : List N), ShowsEntries V es ns → ∀ (h k : Nat) (pre : List Field) (done zs : List Val), h < k →
      all = pre ++ fs → done.length = pre.length → Zeros L P fs zs → ∃ k', k ≤ k' ∧
      ∀ s c gs, R s c → Ready c k (h + 1) ((some h, ns) :: gs) →
      ∃ s' c', Conv (fun f => decFields E L P f all h (done ++ zs) s k) (done ++ vs, s', k') ∧ R s' c' ∧
        Ready c' k' (h + 1) ((some h, []) :: gs) ∧ c'.denied = c.denied := by
  induction hg with
  | nil =>
    intro ns hns h k pre done zs hk _ _ hzs
    cases hns
    cases hzs
    refine ⟨k, Nat.le_refl _, fun s c fs hs hr => ?_⟩
    obtain ⟨s', h1, h2⟩ := read_items hE hs (Nat.lt_succ_self h) hr
    refine ⟨s', c, Conv.succ (fun f => by rw [decFields]) (Conv.bind h1 ?_), h2, hr, rfl⟩
    exact Conv.pure _
  | @omitted f fs v vs es hv _ ih =>
    intro ns hns h k pre done zs hk hall hlen hzs
    cases hzs with
    | @cons _ _ z zs hz hzs =>
      obtain rfl := hv.unique hz
      have := ih ns hns h k (pre ++ [f]) (done ++ [v]) zs hk (by simpa using hall) (by simp [hlen]) hzs
      simpa using this
  | @kept f fs v vs w es hgv _ ih =>
    intro ns hns h k pre done zs hk hall hlen hzs
    cases hzs with
    | @cons _ _ z zs hz hzs =>
      obtain ⟨hne, a, b, ns', ha, hb, hes, hnodes⟩ := entry_nodes hns
      have hstr : V.verdict .string a = .whole ∧ V.text a = f.name := by
        cases ha with
        | scalar _ h => exact h
      have hval : valueOf V a .string = .ok (.str f.name) := by simp [valueOf, hstr.2]
      have hp : plain .string := ⟨by decide, by decide, by decide⟩
      by_cases hvn : v = .nil
      · -- a null: the loop goes on, and the field keeps its zero value
        subst hvn
        have hz' : z = .nil := hgv.zero rfl z hz
        subst hz'
        have hnull : V.verdict .null b = .whole := hb.null (hgv.null.mpr rfl)
        obtain ⟨k3, hk3, g3⟩ := ih ns' hes h k (pre ++ [f]) (done ++ [.nil]) zs hk (by simpa using hall) (by simp [hlen]) hzs
        refine ⟨k3, by omega, fun s c gs hs hr => ?_⟩
        obtain ⟨s0, h1, h2⟩ := read_items hE hs (Nat.lt_succ_self h) hr
        obtain ⟨rest1, hat1, hn1⟩ := hnodes c k _ _ _ hr
        obtain ⟨s1, c1, e1, r1, y1, d1⟩ := read_leaf hE h2 hat1 (call := .string) rfl hp rfl hstr.1 hval
        obtain ⟨rest2, hat2, hn2⟩ := hn1 c1 k _ y1
        obtain ⟨s2, c2, e2, r2, y2, d2⟩ := read_null hE r1 hat2 hnull
        obtain ⟨s3, c3, e3, r3, y3, d3⟩ := g3 s2 c2 gs r2 (hn2 c2 k k (h + 1) (by omega) y2)
        refine ⟨s3, c3, Conv.succ (fun f => by rw [decFields]) (Conv.bind h1 ?_), r3, y3, d3.trans (d2.trans d1)⟩
        simp only [hne, Bool.not_false, toBool, if_true]
        refine Conv.bind e1 (Conv.bind e2 ?_)
        simpa [toBool] using e3
      · have hsolid := hgv.solid hvn hb
        obtain ⟨k2, hk2, g2⟩ := hgv.gives b hb k z hz
        obtain ⟨k3, hk3, g3⟩ := ih ns' hes h k2 (pre ++ [f]) (done ++ [v]) zs (by omega) (by simpa using hall)
          (by simp [hlen]) hzs
        refine ⟨k3, by omega, fun s c gs hs hr => ?_⟩
        obtain ⟨s0, h1, h2⟩ := read_items hE hs (Nat.lt_succ_self h) hr
        obtain ⟨rest1, hat1, hn1⟩ := hnodes c k _ _ _ hr
        obtain ⟨s1, c1, e1, r1, y1, d1⟩ := read_leaf hE h2 hat1 (call := .string) rfl hp rfl hstr.1 hval
        obtain ⟨rest2, hat2, hn2⟩ := hn1 c1 k _ y1
        obtain ⟨s2, c2, e2, r2, hat3, d2⟩ := read_probe hE r1 hat2 (hsolid.null rfl)
        obtain ⟨s3, c3, e3, r3, y3, d3⟩ := g2 s2 c2 rest2 r2 hat3
        obtain ⟨s4, c4, e4, r4, y4, d4⟩ := g3 s3 c3 gs r3 (hn2 c3 k2 k (h + 1) (by omega) y3)
        refine ⟨s4, c4, Conv.succ (fun f => by rw [decFields]) (Conv.bind h1 ?_), r4, y4,
          d4.trans (d3.trans (d2.trans d1))⟩
        simp only [hne, Bool.not_false, toBool, if_true]
        refine Conv.bind e1 (Conv.bind e2 ?_)
        have hb : branch f.name all = some (pre.length, f) := by
          rw [hall] at hnd ⊢
          exact branch_at hnd
        simp only [toBool, Bool.false_eq_true, if_false, toStr, hb]
        refine Conv.bind (x := (v, s3, k2)) ?_ ?_
        · have : (done ++ z :: zs).getD pre.length .nil = z := by
            rw [← hlen]
            simp [List.getD]
          rw [this]
          exact e3
        · have : (done ++ z :: zs).set pre.length v = done ++ [v] ++ zs := by
            rw [← hlen, List.set_append_right _ _ (Nat.le_refl _)]
            simp
          simp only [this]
          simpa using e4

/-! ### All values -/

theorem zeros_of {ds : List Field} {zs : List Val} (hl : zs.length = ds.length)
    (h : ∀ (i : Nat) d z, ds[i]? = some d → zs[i]? = some z → IsZero L P d.ty z) : Zeros L P ds zs := by
  induction ds generalizing zs with
  | nil =>
    obtain rfl := List.length_eq_zero_iff.mp hl
    exact .nil
  | cons d ds ih =>
    cases zs with
    | nil => cases hl
    | cons z zs => exact .cons (h 0 d z rfl rfl) (ih (by simpa using hl) fun i d z hd hz => h (i + 1) d z hd hz)

/-- What is needed of the texts. -/
structure Readable (V : View N) (X : Texts) (L : Lib) : Prop where
  float : ∀ n t, X.float n t → V.toFloat t n = true ∧ L.toFloat (some t) = t

variable {X : Texts}

theorem good_leaf (hE : Refines E V R) {t : Ty} {om : Bool} {v : Val} {x : Inserter.Scalar} (hx : x ≠ .null)
    (hv : v ≠ .nil) {call : Call} {e : Expecter} {o : Out N} {v' : Out N → Val} (he : expecterOf call = some e) (hp : plain e)
    (hop : opening call = false) (hverd : ∀ n, ShowsScalar V n x → V.verdict e n = .whole ∧ valueOf V n call = .ok o)
    (hd : ∀ f z s k, dec E L P (f + 1) t om z s k = (do
      let p ← E.step f s call
      .ok (v' p.1, p.2, k))) (hvo : v' o = v) : Good E V R L P t om v (.scalar x : Value ν) := by
  refine ⟨⟨fun h => ?_, fun h => absurd h hv⟩, fun h => absurd h hv, fun n hn k z _ => ?_⟩
  · cases x <;> first | exact absurd rfl hx | cases h
  · cases hn with
    | scalar _ h => exact gives_leaf hE he hp hop (hverd n h).1 (hverd n h).2 (fun f s => hd f z s k) hvo

theorem plain_of {call : Call} {e : Expecter} (he : expecterOf call = some e)
    (h : call ≠ .raw ∧ call ≠ .node ∧ call ≠ .skip ∧ call ≠ .any) : plain e := by
  cases call <;> cases he <;> first | exact ⟨by decide, by decide, by decide⟩ | simp at h

/-- The scalars which occur. -/
def Texts.scalar (X : Texts) : Inserter.Scalar → Prop
  | .string s => X.string s
  | .float t => ∃ n, X.float n t
  | .timestamp _ => False
  | _ => True

mutual
/-- All scalars of an inserted value occur in `X`, and there are no raw texts. -/
def Within (X : Texts) : Value ν → Prop
  | .scalar x => X.scalar x
  | .seq vs => WithinItems X vs
  | .map es => WithinEntries X es
  | .raw _ => False
/-- See `Within`. -/
def WithinItems (X : Texts) : Values ν → Prop
  | .nil => True
  | .cons v vs => Within X v ∧ WithinItems X vs
/-- See `Within`. -/
def WithinEntries (X : Texts) : Entries ν → Prop
  | .nil => True
  | .cons k v es => Within X k ∧ Within X v ∧ WithinEntries X es
end

mutual
/-- No collection is empty, and keys are scalars. -/
def Bulky : Value ν → Prop
  | .scalar _ => True
  | .seq .nil => False
  | .seq (.cons v vs) => Bulky v ∧ BulkyItems vs
  | .map .nil => False
  | .map (.cons (.scalar _) v es) => Bulky v ∧ BulkyEntries es
  | .map (.cons _ _ _) => False
  | .raw _ => False
/-- See `Bulky`. -/
def BulkyItems : Values ν → Prop
  | .nil => True
  | .cons v vs => Bulky v ∧ BulkyItems vs
/-- See `Bulky`. -/
def BulkyEntries : Entries ν → Prop
  | .nil => True
  | .cons (.scalar _) v es => Bulky v ∧ BulkyEntries es
  | .cons _ _ _ => False
end

/-- The shape of the value which is written. -/
structure Form (L : Lib) (P : Package) (t : Ty) (v : Val) (w : Value ν) : Prop where
  scalar : t.scalar = true → ∃ x, w = .scalar x
  bulky : Full L P t v → Bulky w

/-- The value is encoded by the calls for `w`, and read back. -/
def Returns (E : Engine σ N) (V : View N) (R : σ → Cursor N → Prop) (L : Lib) (P : Package) (X : Texts) (ν : Type) (t : Ty)
    (om : Bool) (v : Val) : Prop :=
  ∀ cn, (cn = true ∨ v ≠ .nil) → ∃ w : Value ν, enc L P t cn v = some (calls w) ∧ Good E V R L P t om v w ∧ Within X w ∧
    Form L P t v w

theorem items_returns {t : Ty} {om : Bool} : ∀ (vs : List Val), (∀ v ∈ vs, Returns E V R L P X ν t om v) →
    ∃ ws : Values ν, encItems L P t vs = some (callsValues ws) ∧ GoodItems E V R L P t om vs ws ∧ WithinItems X ws ∧
      ((∀ v ∈ vs, Full L P t v) → BulkyItems ws ∧ (vs ≠ [] → Bulky (.seq ws)))
  | [], _ => ⟨.nil, by simp [encItems, callsValues], .nil, trivial, fun _ => ⟨trivial, fun h => absurd rfl h⟩⟩
  | v :: vs, h => by
    obtain ⟨w, h1, h2, h3, h0⟩ := h v List.mem_cons_self true (.inl rfl)
    obtain ⟨ws, h4, h5, h6, h7⟩ := items_returns vs fun u hu => h u (List.mem_cons_of_mem _ hu)
    refine ⟨.cons w ws, by simp [encItems, callsValues, h1, h4], .cons h2 h5, ⟨h3, h6⟩, fun hf => ?_⟩
    have := And.intro (h0.bulky (hf v List.mem_cons_self)) (h7 fun u hu => hf u (List.mem_cons_of_mem _ hu)).1
    exact ⟨this, fun _ => this⟩

theorem entries_returns {t u : Ty} {om : Bool} : ∀ (kvs : List (Val × Val)),
    (∀ p ∈ kvs, Returns E V R L P X ν t om p.1) → (∀ p ∈ kvs, Returns E V R L P X ν u om p.2) →
    ∃ es : Entries ν, encEntries L P t u (entriesOf kvs) = some (callsEntries es) ∧
      GoodEntries E V R L P t u om kvs es ∧ WithinEntries X es ∧
      (t.scalar = true → (∀ p ∈ kvs, Full L P u p.2) → BulkyEntries es ∧ (kvs ≠ [] → Bulky (.map es)))
  | [], _, _ => ⟨.nil, by simp [encEntries, callsEntries, entriesOf], .nil, trivial, fun _ _ => ⟨trivial, fun h => absurd rfl h⟩⟩
  | (k, v) :: kvs, hk, hv => by
    obtain ⟨wk, h1, h2, h3, hf1⟩ := hk _ List.mem_cons_self true (.inl rfl)
    obtain ⟨wv, h4, h5, h6, hf2⟩ := hv _ List.mem_cons_self true (.inl rfl)
    obtain ⟨es, h7, h8, h9, hf3⟩ := entries_returns kvs (fun u hu => hk u (List.mem_cons_of_mem _ hu))
      (fun u hu => hv u (List.mem_cons_of_mem _ hu))
    refine ⟨.cons wk wv es, ?_, .cons h2 h5 h8, ⟨h3, h6, h9⟩, fun ht hf => ?_⟩
    · simp only [entriesOf, List.map_cons] at h7 ⊢
      rw [encEntries]
      simp [callsEntries, h1, h4, h7]
    · obtain ⟨x, rfl⟩ := hf1.scalar ht
      have := And.intro (hf2.bulky (hf _ List.mem_cons_self)) (hf3 ht fun p hp => hf p (List.mem_cons_of_mem _ hp)).1
      exact ⟨this, fun _ => this⟩

theorem Blank.notEmpty {t : Ty} {v : Val} (h : Blank L t v) : notEmpty L t v = false := by
  cases h with
  | float h => simp [GenCode.notEmpty, h]
  | _ => rfl

theorem Fits.blank {t : Ty} {om : Bool} {v : Val} (h : Fits X L P t om v) (hn : notEmpty L t v = false) : Blank L t v := by
  cases h with
  | @string _ s _ =>
    cases s with
    | nil => exact .string
    | cons => simp [GenCode.notEmpty] at hn
  | @bool _ b =>
    cases b with
    | false => exact .bool
    | true => simp [GenCode.notEmpty] at hn
  | @int _ n v _ =>
    obtain rfl : v = 0 := by simpa [GenCode.notEmpty] using hn
    exact .int
  | @uint _ n v _ =>
    obtain rfl : v = 0 := by simpa [GenCode.notEmpty] using hn
    exact .uint
  | float _ => exact .float (by simpa [GenCode.notEmpty] using hn)
  | bytesNil => exact .bytesNil
  | @bytes _ s _ =>
    cases s with
    | nil => exact .bytes
    | cons => simp [GenCode.notEmpty] at hn
  | sliceNil => exact .sliceNil
  | @slice _ _ vs _ =>
    cases vs with
    | nil => exact .slice
    | cons => simp [GenCode.notEmpty] at hn
  | ptrNil => exact .ptr
  | mapNil => exact .mapNil
  | @map _ _ _ es kvs h _ _ _ _ =>
    cases es with
    | nil => exact .map
    | cons => simp [GenCode.notEmpty] at hn
  | _ => simp [GenCode.notEmpty] at hn

theorem fields_returns : ∀ (fs : List Field) (vs : List Val), vs.length = fs.length →
    (∀ f ∈ fs, X.string f.name) →
    (∀ (i : Nat) f v, fs[i]? = some f → vs[i]? = some v → Omitted L P f v → IsZero L P f.ty v) →
    (∀ (i : Nat) f v, fs[i]? = some f → vs[i]? = some v → ¬ Omitted L P f v → Returns E V R L P X ν f.ty f.omitempty v) →
    (∀ (i : Nat) f v, fs[i]? = some f → vs[i]? = some v → ¬ Omitted L P f v → (P.omitempty || f.omitempty) = true →
      notEmpty L f.ty v = true ∧ v ≠ .nil) →
    ∃ es : Entries ν, encFields L P fs vs = some (callsEntries es) ∧ GoodFields E V R L P fs vs es ∧ WithinEntries X es ∧
      ((∀ (i : Nat) f v, fs[i]? = some f → vs[i]? = some v → ¬ Omitted L P f v → Full L P f.ty v) → BulkyEntries es ∧
        ((∃ (i : Nat) (f : Field) (v : Val), fs[i]? = some f ∧ vs[i]? = some v ∧ ¬ Omitted L P f v) → Bulky (.map es)))
  | [], [], _, _, _, _, _ => ⟨.nil, by simp [encFields, callsEntries], .nil, trivial, fun _ => ⟨trivial, fun ⟨i, f, v, h, _⟩ => by simp at h⟩⟩
  | [], _ :: _, h, _, _, _, _ => nomatch h
  | _ :: _, [], h, _, _, _, _ => nomatch h
  | f :: fs, v :: vs, hl, hn, hz, hr, hne => by
    obtain ⟨es, h1, h2, h3, h0⟩ := fields_returns fs vs (by simpa using hl) (fun g hg => hn g (List.mem_cons_of_mem _ hg))
      (fun i g u hg hu => hz (i + 1) g u hg hu) (fun i g u hg hu => hr (i + 1) g u hg hu)
      (fun i g u hg hu => hne (i + 1) g u hg hu)
    by_cases hom : Omitted L P f v
    · refine ⟨es, ?_, .omitted (hz 0 f v rfl rfl hom) h2, h3, fun hf => ⟨(h0 fun i g u hg hu => hf (i + 1) g u hg hu).1, ?_⟩⟩
      · rw [encFields, if_pos (by simp [hom.1, hom.2.notEmpty]), h1]
      · rintro ⟨i, g, u, hg, hu, ho⟩
        cases i with
        | zero => cases hg; cases hu; exact absurd hom ho
        | succ i => exact (h0 fun i g u hg hu => hf (i + 1) g u hg hu).2 ⟨i, g, u, hg, hu, ho⟩
    · have hcn : (!(P.omitempty || f.omitempty)) = true ∨ v ≠ .nil := by
        by_cases ho : (P.omitempty || f.omitempty) = true
        · exact .inr (hne 0 f v rfl rfl hom ho).2
        · exact .inl (by simpa using ho)
      obtain ⟨w, h4, h5, h6, h7⟩ := hr 0 f v rfl rfl hom (!(P.omitempty || f.omitempty)) hcn
      refine ⟨.cons (.scalar (.string f.name)) w es, ?_, .kept h5 h2, ⟨hn f List.mem_cons_self, h6, h3⟩, fun hf => ?_⟩
      · have hc : ((P.omitempty || f.omitempty) && !notEmpty L f.ty v) = false := by
          by_cases ho : (P.omitempty || f.omitempty) = true
          · simp [(hne 0 f v rfl rfl hom ho).1]
          · simp only [Bool.not_eq_true] at ho; simp [ho]
        rw [encFields, if_neg (by simp [hc]), h4, h1]
        simp [callsEntries, calls]
      · have := And.intro (h7.bulky (hf 0 f v rfl rfl hom)) (h0 fun i g u hg hu => hf (i + 1) g u hg hu).1
        exact ⟨this, fun _ => this⟩

theorem good_nil (hE : Refines E V R) {t : Ty} {om : Bool} {g : Val → Nat → Nat → Out N × σ → Res (Val × σ × Nat)}
    (hz : ∀ z, IsZero L P t z → z = .nil)
    (hd : ∀ f z s k, dec E L P (f + 1) t om z s k = (E.step f s .tryNull >>= g z k f))
    (hg : ∀ z k f s, g z k f (.bool true, s) = .ok (.nil, s, k)) :
    Good E V R L P t om .nil (.scalar .null : Value ν) := by
  refine ⟨⟨fun _ => rfl, fun _ => rfl⟩, fun _ => hz, fun n hn k z _ => ?_⟩
  exact gives_null hE (hn.null rfl) (fun f s => hd f z s k) (hg z k)

theorem ready_close {c : Cursor N} {k' k : Nat} {rest : List (Frame N)} (hr : Ready c k' (k + 1) ((some k, []) :: rest)) :
    Ready c k' k rest := by
  obtain ⟨j, hj, hf⟩ := hr.frames
  refine ⟨hr.fatal, hr.pending, hr.sizes, j ++ [(some k, [])], (hj.mono (Nat.le_succ k)).append ?_, by simpa using hf⟩
  intro f hf
  obtain rfl := List.mem_singleton.mp hf
  exact ⟨rfl, fun x hx => by cases hx; exact Nat.le_refl _⟩

theorem Fits.nil_empty {t : Ty} {om : Bool} (h : Fits X L P t om .nil) : notEmpty L t .nil = false := by
  cases h <;> rfl

theorem fits_returns (hE : Refines E V R) (hX : Readable V X L) {t : Ty} {om : Bool} {v : Val} (h : Fits X L P t om v)
    (hzero : ∀ t, ∃ z, IsZero L P t z) : Returns E V R L P X ν t om v := by
  have leaf : ∀ {t : Ty} {om : Bool} {v : Val} (x : Inserter.Scalar) (call : Call) (e : Expecter) (o : Out N)
      (v' : Out N → Val), (∀ cn, enc (ν := ν) L P t cn v = some [.scalar x]) → X.scalar x → x ≠ .null → v ≠ .nil →
      expecterOf call = some e → plain e → opening call = false →
      (∀ n, ShowsScalar V n x → V.verdict e n = .whole ∧ valueOf V n call = .ok o) →
      (∀ f z s k, dec E L P (f + 1) t om z s k = (do
        let p ← E.step f s call
        .ok (v' p.1, p.2, k))) → v' o = v → Returns E V R L P X ν t om v := by
    intro t om v x call e o v' h1 h2 h3 h4 h5 h6 h7 h8 h9 h10 cn _
    exact ⟨.scalar x, by rw [h1, calls], good_leaf hE h3 h4 h5 h6 h7 h8 h9 h10, h2, fun _ => ⟨x, rfl⟩, fun _ => trivial⟩
  have null : ∀ {t : Ty} {om : Bool} (g : Val → Nat → Nat → Out N × σ → Res (Val × σ × Nat)),
      enc (ν := ν) L P t true .nil = some [.scalar .null] → (∀ z, IsZero L P t z → z = .nil) →
      (∀ f z s k, dec E L P (f + 1) t om z s k = (E.step f s .tryNull >>= g z k f)) →
      (∀ z k f s, g z k f (.bool true, s) = .ok (.nil, s, k)) → Returns E V R L P X ν t om .nil := by
    intro t om g h1 h2 h3 h4 cn hcn
    obtain rfl : cn = true := by simpa using hcn
    exact ⟨.scalar .null, by rw [h1, calls], good_nil hE h2 h3 h4, trivial, fun _ => ⟨_, rfl⟩, fun _ => trivial⟩
  have pnull : plain .null := plain_null
  have pstr : plain .string := ⟨by decide, by decide, by decide⟩
  have pseq : plain .sequence := ⟨by decide, by decide, by decide⟩
  have pmap : plain .mapping := ⟨by decide, by decide, by decide⟩
  induction h with
  | @string om s hs =>
    exact leaf (.string s) .string .string (.str s) (fun o => .str (toStr o)) (fun cn => by rw [enc]) hs (by simp) (by simp)
      rfl pstr rfl (fun n h => ⟨h.1, by simp [valueOf, h.2]⟩) (fun f z s k => by rw [dec]) rfl
  | @bool om b =>
    exact leaf (.boolean b) .boolean .boolean (.bool b) (fun o => .bool (toBool o)) (fun cn => by rw [enc]) trivial (by simp)
      (by simp) rfl ⟨by decide, by decide, by decide⟩ rfl
      (fun n h => ⟨h.1, by simp only [valueOf, h.2]; cases b <;> rfl⟩) (fun f z s k => by rw [dec]) rfl
  | @int om n v hv =>
    exact leaf (.integer v) (.integer n) .integer (.int v) (fun o => .int (toInt o)) (fun cn => by rw [enc]) trivial
      (by simp) (by simp) rfl ⟨by decide, by decide, by decide⟩ rfl
      (fun m h => ⟨h.1, by simp only [valueOf, h.2, (Props.Scalars.integer_roundtrip v n).2.1 hv]⟩)
      (fun f z s k => by rw [dec]) rfl
  | @uint om n v hv =>
    exact leaf (.unsigned v) (.unsigned n) .integer (.uint v) (fun o => .uint (toUint o)) (fun cn => by rw [enc]) trivial
      (by simp) (by simp) rfl ⟨by decide, by decide, by decide⟩ rfl
      (fun m h => ⟨h.1, by simp only [valueOf, h.2, (Props.Scalars.unsigned_roundtrip v n).2.1 hv]⟩)
      (fun f z s k => by rw [dec]) rfl
  | @float om n t ht =>
    exact leaf (.float t) (.float n) .float (.float (some t)) (fun o => .float (L.toFloat (toFloat o)))
      (fun cn => by rw [enc]) ⟨n, ht⟩ (by simp) (by simp) rfl ⟨by decide, by decide, by decide⟩ rfl
      (fun m h => ⟨h.1, by simp only [valueOf, h.2, (hX.float n t ht).1, if_true]⟩)
      (fun f z s k => by rw [dec]) (by simp [toFloat, (hX.float n t ht).2])
  | @bytesNil om =>
    exact null _ (by simp [enc]) (fun z hz => by cases hz; rfl) (fun f z s k => by rw [dec]) (fun z k f s => rfl)
  | @bytes om x hx =>
    intro cn _
    refine ⟨.scalar (.string x), by simp [enc, calls], ⟨by simp [isNullValue], by simp, fun n hn k z _ => ?_⟩, hx, fun _ => ⟨_, rfl⟩, fun _ => trivial⟩
    cases hn with
    | scalar hsolid hsh =>
      refine ⟨k, Nat.le_refl _, fun s c rest hs ha => ?_⟩
      obtain ⟨s1, c1, e1, r1, a1, d1⟩ := read_probe hE hs ha (hsolid.null (by simp))
      obtain ⟨s2, c2, e2, r2, y2, d2⟩ := read_leaf hE r1 a1 (call := .string) (o := .str x) rfl pstr rfl hsh.1
        (by simp [valueOf, hsh.2])
      refine ⟨s2, c2, Conv.succ (fun f => by rw [dec]) (Conv.bind e1 (Conv.bind e2 ?_)), r2, y2, d2.trans d1⟩
      exact Conv.pure _
  | sliceNil =>
    exact null _ (by simp [enc]) (fun z hz => by cases hz; rfl) (fun f z s k => by rw [dec]) (fun z k f s => rfl)
  | @slice t om vs _ ih =>
    intro cn _
    obtain ⟨ws, h1, h2, h3, h0⟩ := items_returns vs ih
    refine ⟨.seq ws, by cases cn <;> simp [enc, calls, h1], ⟨by simp [isNullValue], by simp, fun n hn k z _ => ?_⟩, h3,
      (fun h => nomatch h), fun h => by
        cases h with
        | scalar h => cases h
        | slice hne hf => exact (h0 hf).2 hne⟩
    obtain ⟨zt, hzt⟩ := hzero t
    cases hn with
    | seq hsolid hv hitems =>
      obtain ⟨k', hk', g⟩ := items_good hE hzt h2 _ hitems k (k + 1) [] (Nat.lt_succ_self k)
      refine ⟨k', by omega, fun s c rest hs ha => ?_⟩
      obtain ⟨s1, c1, e1, r1, a1, d1⟩ := read_probe hE hs ha (hsolid.null rfl)
      obtain ⟨s2, c2, e2, r2, y2, d2⟩ := read_open hE r1 a1 (call := .sequence) rfl pseq hv
      obtain ⟨s3, c3, e3, r3, y3, d3⟩ := g s2 c2 rest r2 y2
      refine ⟨s3, c3, Conv.succ (fun f => by rw [dec]) (Conv.bind e1 (Conv.bind e2 (Conv.bind e3 ?_))), r3, ready_close y3,
        d3.trans (d2.trans d1)⟩
      exact Conv.pure _
  | @array len t om vs hl _ ih =>
    intro cn _
    obtain ⟨ws, h1, h2, h3, h0⟩ := items_returns vs ih
    refine ⟨.seq ws, by cases cn <;> simp [enc, calls, h1, hl], ⟨by simp [isNullValue], by simp, fun n hn k z hz => ?_⟩, h3,
      (fun h => nomatch h), fun h => by
        cases h with
        | scalar h => cases h
        | array hne hf => exact (h0 hf).2 hne⟩
    cases hz with
    | @array _ _ zt hzt =>
      cases hn with
      | seq hsolid hv hitems =>
        obtain ⟨k', hk', g⟩ := array_good hE hzt h2 _ hitems len k (k + 1) len [] (Nat.lt_succ_self k) (by omega)
          (by simp; omega)
        refine ⟨k', by omega, fun s c rest hs ha => ?_⟩
        obtain ⟨s1, c1, e1, r1, a1, d1⟩ := read_probe hE hs ha (hsolid.null rfl)
        obtain ⟨s2, c2, e2, r2, y2, d2⟩ := read_open hE r1 a1 (call := .sequence) rfl pseq hv
        obtain ⟨s3, c3, e3, r3, y3, d3⟩ := g s2 c2 rest r2 y2
        refine ⟨s3, c3, Conv.succ (fun f => by rw [dec]) (Conv.bind e1 (Conv.bind e2 (Conv.bind e3 ?_))), r3,
          ready_close y3, d3.trans (d2.trans d1)⟩
        have : [] ++ vs ++ List.replicate (len - vs.length) zt = vs := by simp [hl]
        rw [this]
        exact Conv.pure _
  | ptrNil =>
    exact null _ (by simp [enc]) (fun z hz => by cases hz; rfl) (fun f z s k => by rw [dec]) (fun z k f s => rfl)
  | @ptr t om v hv _ ih =>
    intro cn _
    obtain ⟨w, h1, h2, h3, h0⟩ := ih true (.inl rfl)
    refine ⟨w, by cases cn <;> simp [enc, h1], ⟨⟨fun h => absurd (h2.null.mp h) hv, by simp⟩, by simp, fun n hn k z hz => ?_⟩, h3,
      (fun h => nomatch h), fun h => by
        cases h with
        | scalar h => cases h
        | ptr hf => exact h0.bulky hf⟩
    obtain ⟨zt, hzt⟩ := hzero t
    cases hz
    obtain ⟨k', hk', g⟩ := h2.gives n hn k zt hzt
    refine ⟨k', hk', fun s c rest hs ha => ?_⟩
    obtain ⟨s1, c1, e1, r1, a1, d1⟩ := read_probe hE hs ha ((h2.solid hv hn).null rfl)
    obtain ⟨s2, c2, e2, r2, y2, d2⟩ := g s1 c1 rest r1 a1
    refine ⟨s2, c2, Conv.succ (fun f => by rw [dec]) (Conv.bind e1 (Conv.bind hzt.conv (Conv.bind e2 ?_))), r2, y2,
      d2.trans d1⟩
    exact Conv.pure _
  | mapNil =>
    exact null _ (by simp [enc]) (fun z hz => by cases hz; rfl) (fun f z s k => by rw [dec]) (fun z k f s => rfl)
  | @map t u om es kvs hes hne hnd _ _ ihk ihv =>
    intro cn _
    subst hes
    obtain ⟨ws, h1, h2, h3, h0⟩ := entries_returns kvs ihk ihv
    simp only [entriesOf] at h1
    refine ⟨.map ws, by cases cn <;> simp [enc, calls, h1], ⟨by simp [isNullValue], by simp, fun n hn k z _ => ?_⟩, h3,
      (fun h => nomatch h), fun h => by
        cases h with
        | scalar h => cases h
        | map ht hne hf => exact (h0 ht fun p hp => hf p.1 p.2 (List.mem_map.mpr ⟨p, hp, rfl⟩)).2 (by simpa using hne)⟩
    obtain ⟨zt, hzt⟩ := hzero t
    obtain ⟨zu, hzu⟩ := hzero u
    cases hn with
    | map hsolid hv hsize hitems =>
      obtain ⟨k', hk', g⟩ := entries_good hE hzt hzu h2 _ hitems k (k + 1) [] (Nat.lt_succ_self k) (by simpa using hnd)
      refine ⟨k', by omega, fun s c rest hs ha => ?_⟩
      obtain ⟨s1, c1, e1, r1, a1, d1⟩ := read_probe hE hs ha (hsolid.null rfl)
      obtain ⟨s2, c2, e2, r2, y2, d2⟩ := read_open hE r1 a1 (call := .mapping) rfl pmap hv
      obtain ⟨s3, c3, e3, r3, y3, d3⟩ := g s2 c2 rest r2 y2
      refine ⟨s3, c3, Conv.succ (fun f => by rw [dec]) (Conv.bind e1 (Conv.bind e2 ?_)), r3,
        ready_close y3, d3.trans (d2.trans d1)⟩
      have hcond : ((P.omitempty || om) && toSize (.coll (V.size n) : Out N) == 0) = false := by
        rw [Bool.and_eq_false_iff]
        by_cases ho : (P.omitempty || om) = true
        · right
          have hne := hne ho
          simp only [toSize, beq_eq_false_iff_ne]
          intro h0
          rw [hsize h0] at hitems
          cases hitems
          cases h2
          exact hne rfl
        · left
          simpa using ho
      simp only [hcond, Bool.false_eq_true, if_false]
      exact e3
  | @struct id om vs hl hnd hnames hz hfits ih =>
    intro cn _
    obtain ⟨ws, h1, h2, h3, h0⟩ := fields_returns (P.fields id) vs hl hnames hz ih (by
      intro i f v hf hv hom ho
      have hfit := hfits i f v hf hv hom
      have hb : notEmpty L f.ty v = true := by
        cases hc : notEmpty L f.ty v with
        | true => rfl
        | false => exact absurd ⟨ho, hfit.blank hc⟩ hom
      refine ⟨hb, fun hn => ?_⟩
      subst hn
      rw [hfit.nil_empty] at hb
      cases hb)
    refine ⟨.map ws, by cases cn <;> simp [enc, calls, h1], ⟨by simp [isNullValue], by simp, fun n hn k z hz => ?_⟩, h3,
      (fun h => nomatch h), fun h => by
        cases h with
        | scalar h => cases h
        | struct hex hf => exact (h0 hf).2 hex⟩
    cases hz with
    | @struct _ zs hzl hzs =>
      cases hn with
      | map hsolid hv hsize hitems =>
        obtain ⟨k', hk', g⟩ := fields_good hE hnd h2 _ hitems k (k + 1) [] [] zs (Nat.lt_succ_self k) rfl rfl
          (zeros_of hzl hzs)
        refine ⟨k', by omega, fun s c rest hs ha => ?_⟩
        obtain ⟨s1, c1, e1, r1, a1, d1⟩ := read_probe hE hs ha (hsolid.null rfl)
        obtain ⟨s2, c2, e2, r2, y2, d2⟩ := read_open hE r1 a1 (call := .mapping) rfl pmap hv
        obtain ⟨s3, c3, e3, r3, y3, d3⟩ := g s2 c2 rest r2 y2
        refine ⟨s3, c3, Conv.succ (fun f => by rw [dec]) (Conv.bind e1 ?_), r3, ready_close y3,
          d3.trans (d2.trans d1)⟩
        simp only [toBool, Bool.false_eq_true, if_false, Res.bind_ok, Val.members]
        exact Conv.bind e2 (Conv.bind e3 (Conv.pure _))

end Verif.GenCode
