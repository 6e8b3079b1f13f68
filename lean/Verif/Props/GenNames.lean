import Verif.Lemmas.GenNames

/-!
C35: names of generated functions; C36: import aliases; C47: names of generated functions are identifiers.
-/

set_option linter.unusedSimpArgs false

namespace Verif.Props.GenNames

open Verif.GenNames

/-! ### C35 -/

section

variable {τ : Type} [DecidableEq τ]

/-- A request for a function name, with its answer. -/
structure Request (τ : Type) where
  kind : Prefix
  type : τ
  name : Bytes

/-- A history of requests of one generator run; `info` tells the package, the name, ... of a type. -/
inductive History (lib : Lib) (info : τ → TypeInfo) : FuncNames τ → List (Request τ) → FuncNames τ → Prop
  | nil {m} : History lib info m [] m
  | cons {m m' m'' p t n rs} : FunctionName m (baseName lib p (info t)) t n m' → History lib info m' rs m'' →
      History lib info m (⟨p, t, n⟩ :: rs) m''

theorem base_prefix (lib : Lib) (info : τ → TypeInfo) (p : Prefix) (t : τ) : p.bytes <+: baseName lib p (info t) := by
  simp [baseName, join]

theorem history_inv {lib : Lib} {info : τ → TypeInfo} {m m' : FuncNames τ} {rs : List (Request τ)}
    (h : History lib info m rs m') (hi : Inv (fun p t => baseName lib p (info t)) m) :
    Inv (fun p t => baseName lib p (info t)) m' ∧ (∀ e ∈ m, e ∈ m') ∧
      ∀ r ∈ rs, (r.name, r.type) ∈ m' ∧ baseName lib r.kind (info r.type) <+: r.name := by
  induction h with
  | nil => exact ⟨hi, fun _ h => h, by simp⟩
  | @cons m m1 m2 p t n rs hf _ ih =>
    obtain ⟨hi', hn, hp, hsub⟩ := functionName_inv (fun p t => baseName lib p (info t)) (base_prefix lib info) hi hf
    obtain ⟨hi2, hsub2, hr⟩ := ih hi'
    refine ⟨hi2, fun e he => hsub2 e (hsub e he), ?_⟩
    intro r hrm
    simp only [List.mem_cons] at hrm
    rcases hrm with rfl | hrm
    · exact ⟨hsub2 _ hn, hp⟩
    · exact hr r hrm

/-- In every history, whatever the order in which the map is ranged over: two requests get the same name exactly if they are
for the same kind of function and the same type. -/
theorem names_unique_stable (lib : Lib) (info : τ → TypeInfo) (rs : List (Request τ)) (m : FuncNames τ)
    (h : History lib info [] rs m) (r s : Request τ) (hr : r ∈ rs) (hs : s ∈ rs) :
    r.name = s.name ↔ r.kind = s.kind ∧ r.type = s.type := by
  obtain ⟨hi, _, hall⟩ := history_inv h (inv_nil _)
  obtain ⟨hr1, hr2⟩ := hall r hr
  obtain ⟨hs1, hs2⟩ := hall s hs
  constructor
  · intro hn
    rw [hn] at hr1 hr2
    have ht := (mem_lookup hi.keys hr1).symm.trans (mem_lookup hi.keys hs1)
    exact ⟨prefix_bytes_inj ((base_prefix lib info _ _).trans hr2) ((base_prefix lib info _ _).trans hs2), by simpa using ht⟩
  · rintro ⟨hk, ht⟩
    rw [hk, ht] at hr2
    rw [ht] at hr1
    exact hi.one s.kind s.type _ _ hr1 hs1 hr2 hs2

/-- There is always an answer: the search for a free suffix ends. -/
theorem name_found (lib : Lib) (info : τ → TypeInfo) (m : FuncNames τ) (p : Prefix) (t : τ) :
    ∃ n m', FunctionName m (baseName lib p (info t)) t n m' := functionName_total m _ t

end

/-- A library for the examples: ASCII letters and digits, and letters of Latin-1. -/
def lib0 : Lib :=
  { isWord := fun c => c.isAlphanum || (0xC0 ≤ c.toNat && c.toNat ≤ 0xFF), upper := fun c => [c.toUpper] }

/-- types `T` of the packages "a-b" and "a.b", whose names collide -/
def info0 : Bool → TypeInfo
  | true => ⟨['a', '-', 'b'], ['T'], []⟩
  | false => ⟨['a', '.', 'b'], ['T'], []⟩

/-- The names of the two types do collide, so the second one gets a suffix. -/
example : ∃ rs m, History lib0 info0 [] rs m ∧ rs.length = 3 ∧ baseName lib0 .decode (info0 true) = baseName lib0 .decode (info0 false) := by
  have hb : baseName lib0 .decode (info0 true) = baseName lib0 .decode (info0 false) := by decide +kernel
  obtain ⟨n1, m1, h1⟩ := name_found lib0 info0 [] .decode true
  obtain ⟨n2, m2, h2⟩ := name_found lib0 info0 m1 .decode false
  obtain ⟨n3, m3, h3⟩ := name_found lib0 info0 m2 .decode false
  exact ⟨_, _, .cons h1 (.cons h2 (.cons h3 .nil)), rfl, hb⟩

/-! ### C36 -/

theorem pathBase_ne_nil (p : List Char) : pathBase p ≠ [] := by
  unfold pathBase
  simp only
  split
  · simp
  · split
    · simp
    · rename_i h
      intro hc
      simp only [List.reverse_eq_nil_iff, List.isEmpty_iff, List.reverse_reverse] at h hc
      cases hd : p.reverse.dropWhile (· = '/') with
      | nil => exact h hd
      | cons c cs =>
        rw [hd] at hc
        have hne : ¬ (c = '/') := by
          have := List.head_dropWhile_not (fun x => decide (x = '/')) (by rw [hd]; simp : p.reverse.dropWhile (· = '/') ≠ [])
          simp only [hd, List.head_cons] at this
          simpa using this
        simp [hne] at hc

theorem fixPkgAlias_ne_nil {a : List Char} (h : a ≠ []) : fixPkgAlias a ≠ [] := by
  cases a with
  | nil => exact absurd rfl h
  | cons c cs =>
    unfold fixPkgAlias
    simp only [List.map_cons]
    split <;> simp

/-- A history of requests for aliases: package paths and answers. -/
inductive Aliases : Imports → List (List Char × List Char) → Imports → Prop
  | nil {m} : Aliases m [] m
  | cons {m m' m'' path alias rs fuel} : pkgAlias m fuel path = some (alias, m') → Aliases m' rs m'' →
      Aliases m ((path, alias) :: rs) m''

theorem pkgAlias_spec {m m' : Imports} {fuel path alias} (hm : ImportsOk m) (hne : ∀ e ∈ m, e.2 ≠ [])
    (h : pkgAlias m fuel path = some (alias, m')) :
    ImportsOk m' ∧ (∀ e ∈ m', e.2 ≠ []) ∧ (processVendoring path, alias) ∈ m' ∧ ∀ e ∈ m, e ∈ m' := by
  unfold pkgAlias at h
  simp only at h
  split at h
  · rename_i c cs hl
    simp only [Option.some.injEq, Prod.mk.injEq] at h
    obtain ⟨rfl, rfl⟩ := h
    exact ⟨hm, hne, lookup_mem hl, fun e he => he⟩
  · rename_i hl
    have hnone : m.lookup (processVendoring path) = none := by
      cases ho : m.lookup (processVendoring path) with
      | none => rfl
      | some a =>
        cases a with
        | nil => exact absurd rfl (hne _ (lookup_mem ho))
        | cons c cs => exact absurd ho (hl c cs)
    obtain ⟨_, heq, s, hs⟩ := aliasLoop_some h
    have hok := aliasLoop_ok hm h
    simp only at heq hs hok
    refine ⟨hok, ?_, by rw [heq]; simp, ?_⟩
    · rw [heq]
      intro e he
      simp only [List.mem_cons] at he
      rcases he with rfl | he
      · rw [hs]
        intro hc
        exact fixPkgAlias_ne_nil (pathBase_ne_nil _) (List.append_eq_nil_iff.1 hc).1
      · exact hne e (List.mem_filter.1 he).1
    · intro e he
      rw [heq]
      refine List.mem_cons_of_mem _ (List.mem_filter.2 ⟨he, ?_⟩)
      have : e.1 ≠ processVendoring path := by
        rintro hc
        exact lookup_none hnone e.2 (by rw [← hc]; exact he)
      simpa using this

theorem aliases_spec {m m' : Imports} {rs} (h : Aliases m rs m') (hm : ImportsOk m) (hne : ∀ e ∈ m, e.2 ≠ []) :
    ImportsOk m' ∧ (∀ e ∈ m, e ∈ m') ∧ ∀ r ∈ rs, (processVendoring r.1, r.2) ∈ m' := by
  induction h with
  | nil => exact ⟨hm, fun _ h => h, by simp⟩
  | cons hp _ ih =>
    obtain ⟨h1, h2, h3, h4⟩ := pkgAlias_spec hm hne hp
    obtain ⟨h5, h6, h7⟩ := ih h1 h2
    refine ⟨h5, fun e he => h6 e (h4 e he), ?_⟩
    intro r hr
    simp only [List.mem_cons] at hr
    rcases hr with rfl | hr
    · exact h6 _ h3
    · exact h7 r hr

/-- The imports with which a generator run starts. -/
def Start (m : Imports) : Prop := m = initialImports yayamlsPackages ∨ m = initialImports goyamlPackages

theorem start_ok {m : Imports} (h : Start m) : ImportsOk m ∧ ∀ e ∈ m, e.2 ≠ [] := by
  rcases h with rfl | rfl
  · exact ⟨⟨by unfold Keys; decide +kernel, by decide +kernel⟩, by decide +kernel⟩
  · exact ⟨⟨by unfold Keys; decide +kernel, by decide +kernel⟩, by decide +kernel⟩

theorem nodup_snd {m : Imports} (h : (m.map Prod.snd).Nodup) {p q a : List Char} (hp : (p, a) ∈ m) (hq : (q, a) ∈ m) :
    p = q := by
  induction m with
  | nil => simp at hp
  | cons e m ih =>
    have h' := List.nodup_cons.1 h
    simp only [List.mem_cons] at hp hq
    rcases hp with hp | hp <;> rcases hq with hq | hq
    · rw [← hp] at hq; simpa using hq.symm
    · exact absurd (List.mem_map.2 ⟨_, hq, by rw [← hp]⟩) h'.1
    · exact absurd (List.mem_map.2 ⟨_, hp, by rw [← hq]⟩) h'.1
    · exact ih h'.2 hp hq

/-- In every history of alias requests of a generator run, two requests get the same alias exactly if the package paths are
the same (up to vendoring directories, which are cut off on purpose). -/
theorem aliases_unique_stable (m m' : Imports) (hm : Start m) (rs : List (List Char × List Char)) (h : Aliases m rs m')
    (r s : List Char × List Char) (hr : r ∈ rs) (hs : s ∈ rs) :
    r.2 = s.2 ↔ processVendoring r.1 = processVendoring s.1 := by
  obtain ⟨hok, _, hall⟩ := aliases_spec h (start_ok hm).1 (start_ok hm).2
  constructor
  · intro he
    have h1 := hall r hr
    have h2 := hall s hs
    rw [he] at h1
    exact nodup_snd hok.aliases h1 h2
  · intro he
    have h1 := hall r hr
    have h2 := hall s hs
    rw [he] at h1
    have := (mem_lookup hok.keys h1).symm.trans (mem_lookup hok.keys h2)
    simpa using this

/-- There is always an answer: the search for a free alias ends. -/
theorem alias_found (m : Imports) (path : List Char) : ∃ fuel r, pkgAlias m fuel path = some r := by
  refine ⟨m.length + 1, ?_⟩
  unfold pkgAlias
  simp only
  split
  · exact ⟨_, rfl⟩
  · exact aliasLoop_total m _ _

theorem mem_insertSorted {a b : List Char} {l : List (List Char)} : b ∈ insertSorted a l ↔ b = a ∨ b ∈ l := by
  induction l with
  | nil => simp [insertSorted]
  | cons c l ih =>
    simp only [insertSorted]
    split
    · simp
    · simp only [List.mem_cons, ih]
      constructor
      · rintro (h | h | h) <;> simp [h]
      · rintro (h | h | h) <;> simp [h]

theorem nodup_insertSorted {a : List Char} {l : List (List Char)} (ha : a ∉ l) (hl : l.Nodup) : (insertSorted a l).Nodup := by
  induction l with
  | nil => simp [insertSorted]
  | cons c l ih =>
    simp only [insertSorted]
    split
    · exact List.nodup_cons.2 ⟨ha, hl⟩
    · have hl' := List.nodup_cons.1 hl
      simp only [List.mem_cons, not_or] at ha
      refine List.nodup_cons.2 ⟨?_, ih ha.2 hl'.2⟩
      rw [mem_insertSorted]
      rintro (h | h)
      · exact ha.1 h.symm
      · exact hl'.1 h

theorem mem_sortAliases {b : List Char} {l : List (List Char)} : b ∈ sortAliases l ↔ b ∈ l := by
  induction l with
  | nil => simp [sortAliases]
  | cons c l ih =>
    simp only [sortAliases, List.foldr_cons, mem_insertSorted, List.mem_cons] at ih ⊢
    rw [ih]

theorem nodup_sortAliases {l : List (List Char)} (h : l.Nodup) : (sortAliases l).Nodup := by
  induction l with
  | nil => simp [sortAliases]
  | cons c l ih =>
    have h' := List.nodup_cons.1 h
    simp only [sortAliases, List.foldr_cons]
    refine nodup_insertSorted ?_ (ih h'.2)
    intro hc
    exact h'.1 (mem_sortAliases.1 hc)

theorem clauses_ok {m' : Imports} (hok : ImportsOk m') :
    ((importClauses m').map Prod.fst).Nodup ∧ ∀ path alias, (alias, path) ∈ importClauses m' ↔ (path, alias) ∈ m' := by
  refine ⟨?_, ?_⟩
  · simp only [importClauses, List.map_map, Function.comp_def, List.map_id']
    exact nodup_sortAliases hok.aliases
  · intro path alias
    have hby : ∀ p a, (p, a) ∈ m' → ((m'.reverse.find? (fun e => e.2 = a)).map (·.1)).getD [] = p := by
      intro p a hpa
      cases hf : m'.reverse.find? (fun e => e.2 = a) with
      | none =>
        have := List.find?_eq_none.1 hf (p, a) (by simpa using hpa)
        simp at this
      | some e =>
        have h1 := List.find?_some hf
        have h2 := List.mem_of_find?_eq_some hf
        simp only [List.mem_reverse] at h2
        obtain ⟨q, b⟩ := e
        simp at h1
        subst h1
        exact nodup_snd hok.aliases h2 hpa
    simp only [importClauses, List.mem_map, mem_sortAliases, Prod.mk.injEq, Prod.exists]
    constructor
    · rintro ⟨a, ⟨q, b, hqb, rfl⟩, rfl, hpath⟩
      rw [hby q b hqb] at hpath
      rw [← hpath]
      exact hqb
    · intro hpa
      exact ⟨alias, ⟨path, alias, hpa, rfl⟩, rfl, hby path alias hpa⟩

/-- The header of the generated file imports every package under its alias exactly once. -/
theorem header_imports (m m' : Imports) (hm : Start m) (rs : List (List Char × List Char)) (h : Aliases m rs m') :
    ((importClauses m').map Prod.fst).Nodup ∧ ∀ path alias, (alias, path) ∈ importClauses m' ↔ (path, alias) ∈ m' :=
  clauses_ok (aliases_spec h (start_ok hm).1 (start_ok hm).2).1

theorem vendor_length (p : List Char) : (processVendoring p).length ≤ p.length := by
  induction p with
  | nil => simp [processVendoring]
  | cons c cs ih =>
    simp only [processVendoring]
    split
    · simp only [List.length_cons]; omega
    split
    · simp only [List.length_drop]; omega
    · exact Nat.le_refl _

/-- A path without a vendoring directory stays, otherwise what is behind the last one is left. -/
theorem vendoring_cut (p : List Char) :
    (processVendoring p = p ∧ ∀ a b, p ≠ a ++ ("/vendor/".toList ++ b)) ∨
      (∃ a, p = a ++ ("/vendor/".toList ++ processVendoring p)) ∧
        ∀ a b, p = a ++ ("/vendor/".toList ++ b) → (processVendoring p).length ≤ b.length := by
  induction p with
  | nil => exact .inl ⟨rfl, fun a b h => by simp at h⟩
  | cons c cs ih =>
    simp only [processVendoring]
    have hne : "/vendor/".toList.length = 8 := by decide +kernel
    rcases ih with ⟨h1, h2⟩ | ⟨⟨a, h1⟩, h2⟩
    · rw [if_neg (by rw [h1]; omega)]
      have hcase : ∀ a b, c :: cs = a ++ ("/vendor/".toList ++ b) → a = [] := by
        intro a b h
        cases a with
        | nil => rfl
        | cons d a =>
          simp only [List.cons_append, List.cons.injEq] at h
          exact absurd h.2 (h2 a b)
      by_cases hp : "/vendor/".toList.isPrefixOf (c :: cs) = true
      · rw [if_pos hp]
        obtain ⟨t, ht⟩ := List.isPrefixOf_iff_prefix.1 hp
        right
        refine ⟨⟨[], ?_⟩, ?_⟩
        · rw [← ht, List.drop_left]; rfl
        · intro a b h
          have := hcase a b h
          subst this
          rw [h, List.nil_append, List.drop_left]
          exact Nat.le_refl _
      · rw [if_neg hp]
        left
        refine ⟨rfl, ?_⟩
        intro a b h
        have := hcase a b h
        subst this
        exact hp (List.isPrefixOf_iff_prefix.2 ⟨b, h.symm⟩)
    · have hl : (processVendoring cs).length < cs.length := by
        have h3 := congrArg List.length h1
        simp only [List.length_append, hne] at h3
        omega
      rw [if_pos hl]
      right
      refine ⟨⟨c :: a, by rw [List.cons_append, ← h1]⟩, ?_⟩
      intro a' b h
      cases a' with
      | nil =>
        have h4 := congrArg List.length h
        simp only [List.nil_append, List.length_append, List.length_cons, hne] at h4
        have h5 := congrArg List.length h1
        simp only [List.length_append, hne] at h5
        have h6 : ∀ (x : List Char), ("/vendor/".toList ++ x) = '/' :: ("vendor/".toList ++ x) := fun x => rfl
        simp only [List.nil_append, h6, List.cons.injEq] at h
        have h7 := h.2
        rw [h1] at h7
        have h8 : a.length + 8 + (processVendoring cs).length = 7 + b.length := by
          have h9 := congrArg List.length h7
          have h10 : "vendor/".toList.length = 7 := by decide +kernel
          simp only [List.length_append, hne, h10] at h9
          omega
        by_cases ha : 1 ≤ a.length
        · omega
        · omega
      | cons d a' =>
        simp only [List.cons_append, List.cons.injEq] at h
        exact h2 a' b h.2

/-- the last of two vendoring directories counts -/
example : processVendoring "a/vendor/b/vendor/c".toList = ['c'] := by decide +kernel

/-- two packages of the same base name, and a vendored copy -/
example : ∃ rs m', Aliases (initialImports yayamlsPackages) rs m' ∧ rs.length = 3 ∧
    ['/', 'x'] ∈ rs.map Prod.fst ∧ ['b', '/', 'x'] ∈ rs.map Prod.fst := by
  obtain ⟨f1, ⟨a1, m1⟩, h1⟩ := alias_found (initialImports yayamlsPackages) ['/', 'x']
  obtain ⟨f2, ⟨a2, m2⟩, h2⟩ := alias_found m1 ['b', '/', 'x']
  obtain ⟨f3, ⟨a3, m3⟩, h3⟩ := alias_found m2 "a/vendor/b/x".toList
  exact ⟨_, _, .cons h1 (.cons h2 (.cons h3 .nil)), rfl, by simp, by simp⟩

/-! ### C47 -/

/-- A name is an identifier: the text of letters and digits. -/
def Identifier (lib : Lib) (name : Bytes) : Prop := ∃ cs : List Char, name = utf8 cs ∧ ∀ c ∈ cs, lib.isWord c = true

/-- What is known of the library: ASCII letters and digits are letters and digits, also in upper case. -/
structure Ascii (lib : Lib) : Prop where
  word : ∀ c : Char, c.isAlphanum = true → lib.isWord c = true
  upper : ∀ c : Char, c.toNat < 128 → lib.isWord c = true → ∀ d ∈ lib.upper c, lib.isWord d = true

theorem identifier_append {lib : Lib} {a b : Bytes} (ha : Identifier lib a) (hb : Identifier lib b) :
    Identifier lib (a ++ b) := by
  obtain ⟨cs, rfl, h1⟩ := ha
  obtain ⟨ds, rfl, h2⟩ := hb
  refine ⟨cs ++ ds, by simp [utf8], ?_⟩
  intro c hc
  simp only [List.mem_append] at hc
  exact hc.elim (h1 c) (h2 c)

theorem encode_ascii {c : Char} (h : c.toNat < 128) : String.utf8EncodeChar c = [UInt8.ofNat c.toNat] := by
  have : c.val.toNat ≤ 127 := by have : c.val.toNat = c.toNat := rfl; omega
  unfold String.utf8EncodeChar
  simp only
  rw [if_pos this]
  rfl

theorem identifier_title {lib : Lib} (hl : Ascii lib) {cs : List Char} (hw : ∀ c ∈ cs, lib.isWord c = true)
    (ha : ∀ c cs', cs = c :: cs' → c.toNat < 128) : Identifier lib (title lib (utf8 cs)) := by
  cases cs with
  | nil => exact ⟨[], by simp [utf8, title], by simp⟩
  | cons c cs =>
    have hc : c.toNat < 128 := ha c cs rfl
    have he : utf8 (c :: cs) = UInt8.ofNat c.toNat :: utf8 cs := by simp [utf8, encode_ascii hc]
    rw [he, title]
    have hcc : Char.ofNat (UInt8.ofNat c.toNat).toNat = c := by
      have : (UInt8.ofNat c.toNat).toNat = c.toNat := by simp [UInt8.toNat_ofNat']; omega
      rw [this, Char.ofNat_toNat]
    rw [hcc]
    exact identifier_append ⟨_, rfl, hl.upper c hc (hw c (by simp))⟩ ⟨cs, rfl, fun d hd => hw d (by simp [hd])⟩

theorem splitWords_spec {lib : Lib} : ∀ (cs cur : List Char), (∀ c ∈ cur, lib.isWord c = true) →
    ∀ w ∈ splitWords lib cs cur, (∀ c ∈ w, lib.isWord c = true) ∧ ∀ c ∈ w, c ∈ cs ∨ c ∈ cur
  | [], cur, hcur, w, hw => by
    simp only [splitWords] at hw
    split at hw
    · simp at hw
    · simp at hw; subst hw; exact ⟨hcur, fun c hc => .inr hc⟩
  | c :: cs, cur, hcur, w, hw => by
    simp only [splitWords] at hw
    split at hw
    · rename_i hc
      obtain ⟨h1, h2⟩ := splitWords_spec cs (cur ++ [c]) (by
        intro d hd; simp at hd; exact hd.elim (hcur d) (fun h => h ▸ hc)) w hw
      refine ⟨h1, fun d hd => ?_⟩
      have := h2 d hd
      simp at this ⊢
      rcases this with h | h | h <;> simp [h]
    · split at hw
      · obtain ⟨h1, h2⟩ := splitWords_spec cs [] (by simp) w hw
        refine ⟨h1, fun d hd => ?_⟩
        have := h2 d hd
        simp at this ⊢
        simp [this]
      · simp only [List.mem_cons] at hw
        rcases hw with rfl | hw
        · exact ⟨hcur, fun d hd => .inr hd⟩
        · obtain ⟨h1, h2⟩ := splitWords_spec cs [] (by simp) w hw
          refine ⟨h1, fun d hd => ?_⟩
          have := h2 d hd
          simp at this ⊢
          simp [this]

theorem identifier_flatMap {lib : Lib} {l : List Bytes} (h : ∀ b ∈ l, Identifier lib b) : Identifier lib l.flatten := by
  induction l with
  | nil => exact ⟨[], by simp [utf8], by simp⟩
  | cons b l ih => simpa using identifier_append (h b (by simp)) (ih fun c hc => h c (by simp [hc]))

theorem identifier_prefix {lib : Lib} (hl : Ascii lib) (p : Prefix) : Identifier lib p.bytes := by
  cases p
  · exact ⟨_, rfl, fun c hc => hl.word c (by revert hc; revert c; decide +kernel)⟩
  · exact ⟨_, rfl, fun c hc => hl.word c (by revert hc; revert c; decide +kernel)⟩

theorem title_title_ascii {lib : Lib} (hl : Ascii lib) {b : Bytes} (hb : Identifier lib b)
    (ha : ∀ x bs, b = x :: bs → x.toNat < 128) : Identifier lib (title lib b) := by
  obtain ⟨cs, rfl, hw⟩ := hb
  refine identifier_title hl hw ?_
  intro c cs' hcs
  subst hcs
  apply Classical.byContradiction
  intro hc
  have hv : ¬ c.val.toNat ≤ 127 := by have : c.val.toNat = c.toNat := rfl; omega
  have hlt : c.val.toNat < 0x110000 := by
    have := c.valid
    rcases this with h | h
    · have : c.val.toNat < 0xD800 := h
      omega
    · exact h.2
  have : ∃ x bs, utf8 (c :: cs') = x :: bs ∧ 128 ≤ x.toNat := by
    simp only [utf8, List.flatMap_cons, String.utf8EncodeChar, hv, if_false]
    split
    · exact ⟨_, _, rfl, by simp [UInt8.toNat_ofNat']; omega⟩
    · split
      · exact ⟨_, _, rfl, by simp [UInt8.toNat_ofNat']; omega⟩
      · exact ⟨_, _, rfl, by simp [UInt8.toNat_ofNat']; omega⟩
  obtain ⟨x, bs, he, hx⟩ := this
  have := ha x bs he
  omega

/-- For types in whose package path and name all letters and digits are ASCII, and if upper case turns ASCII into ASCII, the
names are identifiers.  Missing for the property: the others, for which it is false (`name_broken`). -/
theorem names_are_identifiers_partial (lib : Lib) (hl : Ascii lib)
    (hup : ∀ c : Char, c.toNat < 128 → lib.isWord c = true → ∀ d ∈ lib.upper c, d.toNat < 128)
    (t : TypeInfo) (ht : ∀ c ∈ t.pkgPath ++ t.name ++ t.anonymousSuffix, lib.isWord c = true → c.toNat < 128)
    (p : Prefix) (n : Nat) :
    Identifier lib (baseName lib p t) ∧ Identifier lib (baseName lib p t ++ itoa n) := by
  have hwords : ∀ w ∈ splitWords lib (if t.name.isEmpty then t.pkgPath ++ "anonymous".toList ++ t.anonymousSuffix
      else t.pkgPath ++ '.' :: t.name) [], (∀ c ∈ w, lib.isWord c = true) ∧ ∀ c ∈ w, c.toNat < 128 := by
    intro w hw
    obtain ⟨h1, h2⟩ := splitWords_spec _ [] (by simp) w hw
    refine ⟨h1, fun c hc => ?_⟩
    have := h2 c hc
    simp only [List.not_mem_nil, or_false] at this
    split at this
    · simp only [List.mem_append] at this
      rcases this with (h | h) | h
      · exact ht c (by simp [h]) (h1 c hc)
      · exact (by decide +kernel : ∀ d ∈ "anonymous".toList, d.toNat < 128) c h
      · exact ht c (by simp [h]) (h1 c hc)
    · simp only [List.mem_append, List.mem_cons] at this
      rcases this with h | rfl | h
      · exact ht c (by simp [h]) (h1 c hc)
      · decide
      · exact ht c (by simp [h]) (h1 c hc)
  have hsafe : Identifier lib (safeTypeName lib t) ∧ ∀ x bs, safeTypeName lib t = x :: bs → x.toNat < 128 := by
    unfold safeTypeName
    simp only
    generalize splitWords lib _ [] = ws at hwords ⊢
    constructor
    · cases ws with
      | nil => exact ⟨[], by simp [join, utf8], by simp⟩
      | cons w ws =>
        simp only [List.map_cons, join, Bool.false_eq_true, if_false]
        refine identifier_append (identifier_title hl (hwords w (by simp)).1
          (fun c cs hcs => (hwords w (by simp)).2 c (by simp [hcs]))) ?_
        rw [List.flatMap_def]
        refine identifier_flatMap ?_
        intro b hb
        simp only [List.map_map, List.mem_map, Function.comp_def] at hb
        obtain ⟨v, hv, rfl⟩ := hb
        exact identifier_title hl (hwords v (by simp [hv])).1
          (fun c cs hcs => (hwords v (by simp [hv])).2 c (by simp [hcs]))
    · have hutf : ∀ cs : List Char, (∀ c ∈ cs, c.toNat < 128) → ∀ x ∈ utf8 cs, x.toNat < 128 := by
        intro cs hcs x hx
        simp only [utf8, List.mem_flatMap] at hx
        obtain ⟨c, hc, hx⟩ := hx
        rw [encode_ascii (hcs c hc)] at hx
        simp only [List.mem_singleton] at hx
        have := hcs c hc
        subst hx
        simp [UInt8.toNat_ofNat']
        omega
      have htitle : ∀ w : List Char, (∀ c ∈ w, lib.isWord c = true) → (∀ c ∈ w, c.toNat < 128) →
          ∀ x ∈ title lib (utf8 w), x.toNat < 128 := by
        intro w hw ha x hx
        cases w with
        | nil => simp [utf8, title] at hx
        | cons c cs =>
          have hc : c.toNat < 128 := ha c (by simp)
          have he : utf8 (c :: cs) = UInt8.ofNat c.toNat :: utf8 cs := by simp [utf8, encode_ascii hc]
          rw [he, title] at hx
          have hcc : Char.ofNat (UInt8.ofNat c.toNat).toNat = c := by
            have : (UInt8.ofNat c.toNat).toNat = c.toNat := by simp [UInt8.toNat_ofNat']; omega
            rw [this, Char.ofNat_toNat]
          rw [hcc] at hx
          simp only [List.mem_append] at hx
          rcases hx with hx | hx
          · exact hutf _ (hup c hc (hw c (by simp))) x hx
          · exact hutf cs (fun d hd => ha d (by simp [hd])) x hx
      intro x bs hx
      have hmem : x ∈ join lib false (ws.map utf8) := by rw [hx]; simp
      cases ws with
      | nil => simp [join] at hmem
      | cons w ws =>
        simp only [List.map_cons, join, Bool.false_eq_true, if_false, List.mem_append, List.mem_flatMap, List.mem_map] at hmem
        rcases hmem with h | ⟨_, ⟨v, hv, rfl⟩, h⟩
        · exact htitle w (hwords w (by simp)).1 (hwords w (by simp)).2 x h
        · exact htitle v (hwords v (by simp [hv])).1 (hwords v (by simp [hv])).2 x h
  have hbase : Identifier lib (baseName lib p t) := by
    simp only [baseName, join, if_true, List.flatMap_cons, List.flatMap_nil, List.append_nil]
    exact identifier_append (identifier_prefix hl p) (title_title_ascii hl hsafe.1 hsafe.2)
  refine ⟨hbase, identifier_append hbase ?_⟩
  have hd : ∀ d, d < 10 → Identifier lib [UInt8.ofNat (48 + d)] := by
    intro d hd
    refine ⟨[Char.ofNat (48 + d)], ?_, ?_⟩
    · have : (Char.ofNat (48 + d)).toNat = 48 + d := toNat_digit d hd
      simp [utf8, encode_ascii (c := Char.ofNat (48 + d)) (by omega), this]
    · intro c hc
      simp only [List.mem_singleton] at hc
      subst hc
      refine hl.word _ ?_
      match d, hd with
      | 0, _ | 1, _ | 2, _ | 3, _ | 4, _ | 5, _ | 6, _ | 7, _ | 8, _ | 9, _ => decide
  induction n using Nat.strongRecOn with
  | ind n ih =>
    unfold itoa
    split
    · rename_i h; exact hd n h
    · rename_i h
      exact identifier_append (ih (n / 10) (by omega)) (hd _ (by omega))

/-- The last bytes of a text: not a leading byte of a pair followed by two continuation bytes. -/
theorem not_utf8 {pre : Bytes} {cs : List Char} : utf8 cs ≠ pre ++ [0xC3, 0x83, 0x91] := by
  intro h
  rcases List.eq_nil_or_concat cs with rfl | ⟨cs', c, rfl⟩
  · simp [utf8] at h
  · simp only [utf8, List.flatMap_append, List.flatMap_cons, List.flatMap_nil, List.append_nil, List.concat_eq_append] at h
    have hr := congrArg List.reverse h
    simp only [List.reverse_append, List.reverse_cons, List.reverse_nil, List.nil_append, List.cons_append] at hr
    have hlt : c.val.toNat < 0x110000 := by
      have := c.valid
      rcases this with h | h
      · have : c.val.toNat < 0xD800 := h
        omega
      · exact h.2
    unfold String.utf8EncodeChar at hr
    simp only at hr
    split at hr
    · rename_i hle
      simp at hr
      have := congrArg UInt8.toNat hr.1
      have hcn : c.toNat = c.val.toNat := rfl
      rw [← hcn] at hle
      simp [UInt8.toNat_ofNat'] at this
      omega
    · split at hr
      · simp at hr
        have := congrArg UInt8.toNat hr.2.1
        simp [UInt8.toNat_ofNat'] at this
        omega
      · split at hr
        · simp at hr
          have := congrArg UInt8.toNat hr.2.2.1
          simp [UInt8.toNat_ofNat'] at this
          omega
        · simp at hr
          have := congrArg UInt8.toNat hr.2.2.1
          simp [UInt8.toNat_ofNat'] at this
          omega

/-- The property fails: the function for the type `Ñ` of package "p" gets a name which is not a text, since the first
*byte* of the name is turned into upper case (for every library with the letter Ã in upper case already). -/
theorem name_broken (p : Prefix) (lib : Lib) (hw : lib.isWord 'Ñ' = true) (hp : lib.isWord 'p' = true)
    (hd : lib.isWord '.' = false) (hu : lib.upper 'Ã' = ['Ã']) (hP : lib.upper 'p' = ['P']) (hPP : lib.upper 'P' = ['P']) :
    ¬ Identifier lib (baseName lib p ⟨['p'], ['Ñ'], []⟩) := by
  rintro ⟨cs, hcs, _⟩
  have he : baseName lib p ⟨['p'], ['Ñ'], []⟩ = (p.bytes ++ utf8 ['P']) ++ [0xC3, 0x83, 0x91] := by
    have h1 : safeTypeName lib ⟨['p'], ['Ñ'], []⟩ = 0x50 :: [0xC3, 0x83, 0x91] := by
      have hs : splitWords lib ['p', '.', 'Ñ'] [] = [['p'], ['Ñ']] := by simp [splitWords, hw, hp, hd]
      have e1 : utf8 ['p'] = [0x70] := by decide +kernel
      have e2 : utf8 ['Ñ'] = [0xC3, 0x91] := by decide +kernel
      have c1 : Char.ofNat (0x70 : UInt8).toNat = 'p' := by decide +kernel
      have c2 : Char.ofNat (0xC3 : UInt8).toNat = 'Ã' := by decide +kernel
      have e3 : utf8 ['P'] = [0x50] := by decide +kernel
      have e4 : utf8 ['Ã'] = [0xC3, 0x83] := by decide +kernel
      show join lib false ((splitWords lib ['p', '.', 'Ñ'] []).map utf8) = _
      rw [hs]
      simp only [List.map_cons, List.map_nil, e1, e2, join, title, List.flatMap_cons, List.flatMap_nil, c1, c2, hP, hu, e3, e4]
      simp
    have c3 : Char.ofNat (0x50 : UInt8).toNat = 'P' := by decide +kernel
    simp only [baseName, join, if_true, h1, title, List.flatMap_cons, List.flatMap_nil, c3, hPP, List.append_nil]
    simp
  rw [he] at hcs
  exact not_utf8 hcs.symm

/-- the library of the examples meets the hypotheses of `name_broken` -/
example : ¬ Identifier lib0 (baseName lib0 .decode ⟨['p'], ['Ñ'], []⟩) :=
  name_broken .decode lib0 (by decide +kernel) (by decide +kernel) (by decide +kernel) (by decide +kernel)
    (by decide +kernel) (by decide +kernel)

/-- `names_are_identifiers_partial` applies to the type `T` of package "a-b". -/
example : (∀ c ∈ (info0 true).pkgPath ++ (info0 true).name ++ (info0 true).anonymousSuffix,
    lib0.isWord c = true → c.toNat < 128) := by decide +kernel

end Verif.Props.GenNames
