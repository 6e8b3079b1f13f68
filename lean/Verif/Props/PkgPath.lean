import Verif.Lemmas.PkgPath

/-!
C59: name and import path of the package in a directory.
-/

set_option linter.unusedSimpArgs false

namespace Verif.Props.PkgPath

open Verif.PkgPath

/-! ### Modules -/

/-- A line of a go.mod file which declares the module `m`: `module m // comment`. -/
structure Declares (lib : Lib) (line m : Str) : Prop where
  parts : ∃ before sep after comment, line = before ++ "module".toList ++ sep ++ m ++ after ++ comment ∧
    (∀ c ∈ before ++ sep ++ after, lib.isSpace c = true) ∧ sep ≠ [] ∧ (comment = [] ∨ ∃ r, comment = '/' :: '/' :: r)
  some : m ≠ []
  word : ∀ c ∈ m, lib.isSpace c = false
  slashes : ∀ a b, m ≠ a ++ '/' :: '/' :: b
  bare : m.head? ≠ Option.some '"' ∧ m.head? ≠ Option.some '`'
  last : m.getLast? ≠ Option.some '/'

/-- A line with something else. -/
def Other (lib : Lib) (line : Str) : Prop := ¬ "module".toList.isPrefixOf (trimSpace lib (uncomment line)) = true

theorem uncomment_clean : ∀ s : Str, (∀ a b, s ≠ a ++ '/' :: '/' :: b) → s.getLast? ≠ some '/' →
    ∀ comment : Str, (comment = [] ∨ ∃ r, comment = '/' :: '/' :: r) → uncomment (s ++ comment) = s
  | [], _, _, comment, hc => by
    rcases hc with rfl | ⟨r, rfl⟩
    · rfl
    · rfl
  | [c], h, hl, comment, hc => by
    have hne : c ≠ '/' := by simpa using hl
    rcases hc with rfl | ⟨r, rfl⟩
    · unfold uncomment
      split
      · rename_i he; simp at he
      · rename_i he; simp at he; obtain ⟨rfl, rfl⟩ := he; rfl
      · rename_i he; simp at he
    · unfold uncomment
      split
      · rename_i he
        simp at he
        exact absurd he.1 hne
      · rename_i he
        simp at he
        obtain ⟨rfl, rfl⟩ := he
        rfl
      · rename_i he; simp at he
  | c :: d :: s, h, hl, comment, hc => by
    have ih := uncomment_clean (d :: s) (fun a b he => h (c :: a) b (by rw [he]; rfl)) (by simpa using hl) comment hc
    unfold uncomment
    split
    · rename_i he
      simp at he
      exact absurd (by rw [he.1, he.2.1]; rfl) (h [] s)
    · rename_i he
      simp only [List.cons_append, List.cons.injEq] at he
      obtain ⟨rfl, rfl⟩ := he
      rw [← List.cons_append, ih]
    · rename_i he; simp at he

theorem dropWhile_spaces {lib : Lib} : ∀ (sp s : Str), (∀ c ∈ sp, lib.isSpace c = true) → (∀ c ∈ s.head?, lib.isSpace c = false) →
    (sp ++ s).dropWhile lib.isSpace = s
  | [], s, _, h => by
    cases s with
    | nil => rfl
    | cons c s => simp [h c rfl]
  | c :: sp, s, hs, h => by
    simp [hs c (by simp), dropWhile_spaces sp s (fun d hd => hs d (by simp [hd])) h]

theorem trimSpace_word {lib : Lib} (a w b : Str) (ha : ∀ c ∈ a, lib.isSpace c = true) (hb : ∀ c ∈ b, lib.isSpace c = true)
    (h1 : ∀ c ∈ w.head?, lib.isSpace c = false) (h2 : ∀ c ∈ w.getLast?, lib.isSpace c = false) (hw : w ≠ []) :
    trimSpace lib (a ++ w ++ b) = w := by
  unfold trimSpace
  rw [List.append_assoc, dropWhile_spaces a (w ++ b) ha (by
    intro c hc
    refine h1 c ?_
    cases w with
    | nil => exact absurd rfl hw
    | cons d w => simpa using hc), List.reverse_append, dropWhile_spaces b.reverse w.reverse (by simpa using hb) (by
    simpa using h2), List.reverse_reverse]

/-- The declaration is found, whatever stands around it.  Missing for the property: module paths in quotes (`strconv.Unquote` is
a parameter). -/
theorem module_found_partial (lib : Lib) (hs : lib.isSpace '/' = false ∧ lib.isSpace 'm' = false ∧ lib.isSpace 'e' = false)
    (before after : List Str) (line m : Str) (hb : ∀ l ∈ before, Other lib l) (hd : Declares lib line m)
    (hn : ∀ l ∈ before ++ line :: after, '\n' ∉ l) : modulePath lib (join '\n' (before ++ line :: after)) = m := by
  unfold modulePath
  rw [split_join _ _ (by simp) hn]
  clear hn
  induction before with
  | nil =>
    obtain ⟨⟨bf, sep, af, comment, rfl, hsp, hsep, hc⟩, hm, hw, hsl, hq, hl⟩ := hd
    have hsp1 : ∀ c ∈ bf, lib.isSpace c = true := fun c hc => hsp c (by simp [hc])
    have hsp2 : ∀ c ∈ sep, lib.isSpace c = true := fun c hc => hsp c (by simp [hc])
    have hsp3 : ∀ c ∈ af, lib.isSpace c = true := fun c hc => hsp c (by simp [hc])
    have hns : ∀ l : Str, (∀ c ∈ l, lib.isSpace c = true) → '/' ∉ l := fun l h hm => by
      have := h _ hm
      rw [hs.1] at this
      cases this
    have hslash : ∀ a b, bf ++ "module".toList ++ sep ++ m ++ af ≠ a ++ '/' :: '/' :: b := by
      intro a b he
      have h1 : '/' ∉ bf ++ "module".toList ++ sep := by
        simp only [List.mem_append, not_or]
        exact ⟨⟨hns _ hsp1, by decide⟩, hns _ hsp2⟩
      have h2 := hns _ hsp3
      -- both slashes stand in `m`
      rw [List.append_assoc] at he
      rcases List.append_eq_append_iff.1 he with ⟨x, rfl, hx⟩ | ⟨x, hx, he2⟩
      · rcases List.append_eq_append_iff.1 hx with ⟨y, rfl, hy⟩ | ⟨y, hy, he3⟩
        · exact h2 (by rw [hy]; simp)
        · cases y with
          | nil =>
            simp only [List.append_nil, List.nil_append] at hy he3
            exact h2 (by rw [← he3]; simp)
          | cons c y =>
            cases y with
            | nil =>
              simp only [List.cons_append, List.nil_append, List.cons.injEq] at he3
              exact h2 (by rw [← he3.2]; simp)
            | cons d y =>
              simp only [List.cons_append, List.cons.injEq] at he3
              exact hsl x y (by rw [hy, ← he3.1, ← he3.2.1])
      · cases x with
        | nil =>
          simp only [List.nil_append] at he2
          cases m with
          | nil => exact hm rfl
          | cons c m =>
            cases m with
            | nil =>
              simp only [List.cons_append, List.nil_append, List.cons.injEq] at he2
              exact h2 (by rw [← he2.2]; simp)
            | cons d m =>
              simp only [List.cons_append, List.cons.injEq] at he2
              exact hsl [] m (by rw [← he2.1, ← he2.2.1]; rfl)
        | cons c x =>
          simp only [List.cons_append, List.cons.injEq] at he2
          exact h1 (by rw [hx, ← he2.1]; simp)
    have hlast : (bf ++ "module".toList ++ sep ++ m ++ af).getLast? ≠ some '/' := by
      rw [List.getLast?_append]
      cases ha : af.getLast? with
      | none =>
        rw [Option.none_or, List.getLast?_append]
        cases hml : m.getLast? with
        | none => exact absurd (List.getLast?_eq_none_iff.1 hml) hm
        | some c => rw [Option.some_or, ← hml]; exact hl
      | some c =>
        intro he
        simp at he
        subst he
        exact hns _ hsp3 (List.mem_of_getLast? ha)
    have hu := uncomment_clean _ hslash hlast comment hc
    have hml : ∃ c, m.getLast? = some c ∧ lib.isSpace c = false := by
      cases hml : m.getLast? with
      | none => exact absurd (List.getLast?_eq_none_iff.1 hml) hm
      | some c => exact ⟨c, rfl, hw c (List.mem_of_getLast? hml)⟩
    have hmh : ∀ c ∈ m.head?, lib.isSpace c = false := fun c hc => hw c (List.mem_of_head? hc)
    have ht : trimSpace lib (uncomment (bf ++ "module".toList ++ sep ++ m ++ af ++ comment)) = "module".toList ++ sep ++ m := by
      rw [hu]
      have : bf ++ "module".toList ++ sep ++ m ++ af = bf ++ ("module".toList ++ sep ++ m) ++ af := by simp
      rw [this]
      refine trimSpace_word _ _ _ hsp1 hsp3 ?_ ?_ (by simp)
      · intro c hc
        simp at hc
        rw [← hc]
        exact hs.2.1
      · intro c hc
        rw [List.getLast?_append] at hc
        obtain ⟨d, hd1, hd2⟩ := hml
        rw [hd1, Option.some_or] at hc
        simp at hc
        rw [← hc]
        exact hd2
    have ht2 : trimSpace lib (sep ++ m) = m := by
      have := trimSpace_word sep m [] hsp2 (by simp) hmh (fun c hc => by
        obtain ⟨d, hd1, hd2⟩ := hml
        rw [hd1] at hc
        simp at hc
        rw [← hc]
        exact hd2) hm
      simpa using this
    show moduleLoop lib (_ :: after) = m
    unfold moduleLoop
    simp only
    rw [ht]
    have hp : "module".toList.isPrefixOf ("module".toList ++ sep ++ m) = true :=
      List.isPrefixOf_iff_prefix.2 ⟨sep ++ m, by simp⟩
    rw [hp]
    have hdrop : ("module".toList ++ sep ++ m).drop 6 = sep ++ m := by
      rw [List.append_assoc]
      rfl
    rw [hdrop, ht2]
    have hne : ¬ (m.length = (sep ++ m).length ∨ m.length = 0) := by
      have h1 : sep.length ≠ 0 := fun h => hsep (List.length_eq_zero_iff.1 h)
      have h2 : m.length ≠ 0 := fun h => hm (List.length_eq_zero_iff.1 h)
      rw [List.length_append]
      omega
    simp only [Bool.not_true, Bool.false_eq_true, if_false, hne]
    rw [if_neg (by
      rintro (h | h)
      · exact hq.1 h
      · exact hq.2 h)]
  | cons l ls ih =>
    have h1 := hb l (by simp)
    unfold Other at h1
    rw [Bool.not_eq_true] at h1
    show moduleLoop lib (l :: (ls ++ line :: after)) = m
    unfold moduleLoop
    simp only
    rw [h1]
    exact ih (fun x hx => hb x (by simp [hx]))

/-- In a module: the import path of a directory is the path of the module and the path of the directory in it. -/
theorem path_in_module (lib : Lib) (env : Env) (root sub mod : List Str) (hr : ∀ w ∈ root, Elem w) (hsub : ∀ w ∈ sub, Elem w)
    (hm : ∀ w ∈ mod, Elem w) (hmn : mod ≠ []) (given text : Str)
    (hg : (if given.head? = some '/' then given else join2 env.cwd given) = abs (root ++ sub))
    (hgo : env.goMod (abs (root ++ sub)) = abs (root ++ ["go.mod".toList]))
    (hf : env.file (abs (root ++ ["go.mod".toList])) = some text) (ht : modulePath lib text = join '/' mod) :
    findPkgPath lib env given = some (join '/' (mod ++ sub)) := by
  have hall : ∀ w ∈ mod ++ sub, Elem w := fun w hw => (List.mem_append.1 hw).elim (hm w) (hsub w)
  unfold findPkgPath
  simp only [hg, hgo]
  have hc : ∀ s r : Str, PkgPath.contains (s ++ ("go.mod".toList ++ r)) "go.mod".toList = true := by
    intro s r
    induction s with
    | nil => rfl
    | cons c s ih => rw [List.cons_append, PkgPath.contains, ih]; simp
  have hc' : PkgPath.contains (abs (root ++ ["go.mod".toList])) "go.mod".toList = true := by
    cases root with
    | nil => exact hc ['/'] []
    | cons w ws =>
      have : abs ((w :: ws) ++ ["go.mod".toList]) = ('/' :: (join '/' (w :: ws) ++ ['/'])) ++ ("go.mod".toList ++ []) := by
        rw [abs, join_append _ _ _ (by simp) (by simp), join_one]
        simp
      rw [this]
      exact hc _ _
  rw [hc', if_pos rfl]
  unfold pkgPathFromGoMod
  simp only [hf, Option.map_some, Option.getD_some, ht, filePathToPackagePath]
  obtain ⟨hj1, hj2⟩ := join_elem hm hmn
  rw [if_neg hj1, dir_abs hr (by decide)]
  simp only [Option.some.injEq]
  have hjoin : join2 (join '/' mod) (trimPrefix (abs (root ++ sub)) (abs root)) = join '/' (mod ++ sub) := by
    cases sub with
    | nil =>
      have : trimPrefix (abs (root ++ [])) (abs root) = [] := by
        have := trimPrefix_append (abs root) []
        simpa using this
      rw [this, join2, if_neg hj1, if_pos rfl, List.append_nil, clean_join hm hmn]
    | cons v vs =>
      have hrel : ∃ pre, (pre = [] ∨ pre = ['/']) ∧ trimPrefix (abs (root ++ v :: vs)) (abs root) = pre ++ join '/' (v :: vs) := by
        cases root with
        | nil => exact ⟨[], .inl rfl, trimPrefix_append ['/'] (join '/' (v :: vs))⟩
        | cons w ws =>
          refine ⟨['/'], .inr rfl, ?_⟩
          have : abs ((w :: ws) ++ v :: vs) = abs (w :: ws) ++ ('/' :: join '/' (v :: vs)) := by
            rw [abs, join_append _ _ _ (by simp) (by simp)]
            rfl
          rw [this, trimPrefix_append]
          rfl
      obtain ⟨pre, hpre, hrel⟩ := hrel
      obtain ⟨hv1, hv2⟩ := join_elem hsub (by simp)
      rw [hrel, join2, if_neg hj1, if_neg (by simp [hv1])]
      have hh : (join '/' mod ++ '/' :: (pre ++ join '/' (v :: vs))).head? ≠ some '/' := by
        obtain ⟨c, r, hcr⟩ := List.exists_cons_of_ne_nil hj1
        rw [hcr] at hj2 ⊢
        simpa using hj2
      unfold clean
      rw [if_neg (by simp), if_neg hh]
      have hsp : ∃ e : List Str, (∀ x ∈ e, x = []) ∧ split '/' (join '/' mod ++ '/' :: (pre ++ join '/' (v :: vs))) = mod ++ (e ++ v :: vs) := by
        rcases hpre with rfl | rfl
        · refine ⟨[], by simp, ?_⟩
          rw [List.nil_append, ← join_append _ _ _ hmn (by simp), split_join _ _ (by simp) (fun w hw => (hall w hw).one)]
          rfl
        · refine ⟨[[]], by simp, ?_⟩
          have : join '/' mod ++ '/' :: (['/'] ++ join '/' (v :: vs)) = join '/' (mod ++ ([] :: v :: vs)) := by
            rw [join_append _ _ _ hmn (by simp), join_cons]
            rfl
          rw [this, split_join _ _ (by simp) (by
            intro x hx
            rcases List.mem_append.1 hx with hx | hx
            · exact (hm x hx).one
            · rcases List.mem_cons.1 hx with rfl | hx
              · simp
              · exact (hsub x hx).one)]
          rfl
      obtain ⟨e, he, hsp⟩ := hsp
      rw [hsp, cleanElems_elems _ _ _ (by
        intro x hx
        rcases List.mem_append.1 hx with hx | hx
        · exact .inr (hm x hx)
        · rcases List.mem_append.1 hx with hx | hx
          · exact .inl (he x hx)
          · exact .inr (hsub x hx))]
      have hfe : e.filter (fun w => !w.isEmpty) = [] := by
        rw [List.filter_eq_nil_iff]
        intro x hx
        simp [he x hx]
      simp only [List.reverse_nil, List.nil_append, List.filter_append, filter_elems hm, hfe, filter_elems hsub]
      rw [if_neg (by simp)]
  rw [hjoin, clean_join hall (by simp [hmn])]

/-- A system with a module `example.com/m` in `/home/m`. -/
def lib : Lib := ⟨fun c => c = ' ' ∨ c = '\t' ∨ c = '\r', fun _ => none⟩

def env : Env where
  cwd := "/home/m/pkg".toList
  goMod _ := "/home/m/go.mod".toList
  file _ := some "// about\n\nmodule example.com/m // here\n\ngo 1.20\n".toList
  gopath := "/root/go".toList

/-- the hypotheses are met: the package in the working directory -/
example : findPkgPath lib env ['.'] = some "example.com/m/pkg".toList ∧
    modulePath lib "// about\n\nmodule example.com/m // here\n\ngo 1.20\n".toList = join '/' ["example.com".toList, "m".toList] ∧
    (if ['.'].head? = some '/' then ['.'] else join2 env.cwd ['.']) = abs (["home".toList, "m".toList] ++ ["pkg".toList]) := by
  decide +kernel

example : Declares lib "module example.com/m // here".toList "example.com/m".toList :=
  ⟨⟨[], [' '], [' '], "// here".toList, by decide +kernel, by decide +kernel, by decide +kernel, .inr ⟨" here".toList, by decide +kernel⟩⟩,
    by decide +kernel, by decide +kernel, by
      intro a b h
      have hm : ∀ s : Str, (∀ a b, s ≠ a ++ '/' :: '/' :: b) ↔ PkgPath.contains s "//".toList = false := by
        intro s
        induction s with
        | nil => simp [PkgPath.contains]
        | cons c s ih =>
          rw [PkgPath.contains, Bool.or_eq_false_iff, ← ih]
          constructor
          · intro h
            refine ⟨?_, fun a b he => h (c :: a) b (by rw [he]; rfl)⟩
            rw [← Bool.not_eq_true, List.isPrefixOf_iff_prefix]
            rintro ⟨t, ht⟩
            exact h [] t (by rw [← ht]; rfl)
          · rintro ⟨h1, h2⟩ a b he
            cases a with
            | nil =>
              rw [he] at h1
              simp at h1
            | cons d a =>
              simp only [List.cons_append, List.cons.injEq] at he
              exact h2 a b he.2
      exact (hm _).2 (by decide +kernel) a b h, by decide +kernel, by decide +kernel⟩

/-! ### Without modules -/

/-- The path of a directory as seen from the directory `src` of an entry of GOPATH. -/
theorem rel_src (g ws : List Str) (hg : ∀ v ∈ g, Elem v) (hgn : g ≠ []) (hws : ∀ v ∈ ws, Elem v) :
    rel (join2 (abs g) "src".toList ++ ['/']) (abs ws) =
      match apart (g ++ ["src".toList]) ws with
      | ([], []) => some ['.']
      | (as, bs) => some (join '/' (as.map (fun _ => ['.', '.']) ++ bs)) := by
  have hsrc : Elem "src".toList := ⟨by decide, by decide, by decide, by decide⟩
  have hgs : ∀ v ∈ g ++ ["src".toList], Elem v := by
    intro v hv
    rcases List.mem_append.1 hv with hv | hv
    · exact hg v hv
    · simp at hv; rw [hv]; exact hsrc
  have hbase : join2 (abs g) "src".toList ++ ['/'] = abs (g ++ ["src".toList]) ++ ['/'] := by
    rw [join2, if_neg (by simp [abs]), if_neg (by decide)]
    have : abs g ++ '/' :: "src".toList = abs (g ++ ["src".toList]) := by
      rw [abs, abs, join_append _ _ _ hgn (by simp), join_one]
      rfl
    rw [this, clean_abs hgs]
  have hce : cleanElems true (split '/' (abs (g ++ ["src".toList]) ++ ['/'])) [] = g ++ ["src".toList] := by
    have hs : abs (g ++ ["src".toList]) ++ ['/'] = abs ((g ++ ["src".toList]) ++ [[]]) := by
      rw [abs, abs, join_append _ _ [[]] (by simp) (by simp), join_one]
      rfl
    have hs2 : split '/' (abs ((g ++ ["src".toList]) ++ [[]])) = [] :: ((g ++ ["src".toList]) ++ [[]]) := by
      have h1 : split '/' (abs ((g ++ ["src".toList]) ++ [[]])) = [] :: split '/' (join '/' ((g ++ ["src".toList]) ++ [[]])) := by
        simp [abs, split]
      rw [h1, split_join _ _ (by simp) (by
        intro x hx
        rcases List.mem_append.1 hx with hx | hx
        · exact (hgs x hx).one
        · simp at hx; simp [hx])]
    rw [hs, hs2, cleanElems_elems _ _ _ (by
      intro x hx
      rcases List.mem_cons.1 hx with rfl | hx
      · exact .inl rfl
      · rcases List.mem_append.1 hx with hx | hx
        · exact .inr (hgs x hx)
        · exact .inl (by simpa using hx))]
    rw [List.filter_cons, List.filter_append, filter_elems hgs]
    simp
  have hhead : (clean (abs (g ++ ["src".toList]) ++ ['/'])).head? = some '/' := by
    unfold clean
    rw [if_neg (by simp [abs]), if_pos (by simp [abs])]
    rfl
  unfold rel
  rw [hbase, hhead, if_neg (by simp), hce, cleanElems_abs hws]
  rfl

/-- Without a module the property is false for every directory: the last element of the path is lost. -/
theorem gopath_loses_last (g : List Str) (ws : List Str) (w : Str) (env : Env) (hg : ∀ v ∈ g, Elem v) (hgn : g ≠ [])
    (hcolon : ':' ∉ abs g) (hws : ∀ v ∈ ws, Elem v) (hw : Elem w) (henv : env.gopath = abs g) :
    pkgPathFromGOPATH env (abs (g ++ "src".toList :: (ws ++ [w]))) = some (if ws = [] then ['.'] else join '/' ws) := by
  have hsrc : Elem "src".toList := ⟨by decide, by decide, by decide, by decide⟩
  have hwsw : ∀ v ∈ ws ++ [w], Elem v := by
    intro v hv
    rcases List.mem_append.1 hv with hv | hv
    · exact hws v hv
    · simp at hv; rw [hv]; exact hw
  have hall : ∀ v ∈ g ++ "src".toList :: (ws ++ [w]), Elem v := by
    intro v hv
    rcases List.mem_append.1 hv with hv | hv
    · exact hg v hv
    · rcases List.mem_cons.1 hv with rfl | hv
      · exact hsrc
      · exact hwsw v hv
  unfold pkgPathFromGOPATH
  rw [henv, split_word _ _ hcolon]
  have hrel : rel (join2 (abs g) "src".toList ++ ['/']) (abs (g ++ "src".toList :: (ws ++ [w]))) = some (join '/' (ws ++ [w])) := by
    rw [rel_src g _ hg hgn hall]
    have : g ++ "src".toList :: (ws ++ [w]) = (g ++ ["src".toList]) ++ (ws ++ [w]) := by simp
    rw [this, apart_append]
    cases ws with
    | nil => rfl
    | cons v vs => rfl
  unfold gopathLoop
  rw [hrel]
  have hpre : "../".toList.isPrefixOf (join '/' (ws ++ [w])) = false := by
    rw [← Bool.not_eq_true, List.isPrefixOf_iff_prefix]
    rintro ⟨t, ht⟩
    have h1 := split_join '/' (ws ++ [w]) (by simp) (fun x hx => (hwsw x hx).one)
    rw [← ht] at h1
    have h2 : split '/' ("../".toList ++ t) = ['.', '.'] :: split '/' t := split_more '/' ['.', '.'] t (by decide)
    rw [h2] at h1
    have h3 : ['.', '.'] ∈ ws ++ [w] := by rw [← h1]; simp
    exact (hwsw _ h3).dots rfl
  simp only [hpre, Bool.not_false, if_true, filePathToPackagePath]
  rw [← dir_rel hws hw.one]

/-- Directories outside of GOPATH are refused, other than the directory above `src` (`above_src_accepted`). -/
theorem outside_refused_partial (g ws : List Str) (env : Env) (hg : ∀ v ∈ g, Elem v) (hgn : g ≠ []) (hcolon : ':' ∉ abs g)
    (hws : ∀ v ∈ ws, Elem v) (henv : env.gopath = abs g) (hout : ¬ (g ++ ["src".toList]) <+: ws) (hne : ws ≠ g) :
    pkgPathFromGOPATH env (abs ws) = none := by
  unfold pkgPathFromGOPATH
  rw [henv, split_word _ _ hcolon]
  have hrel := rel_src g ws hg hgn hws
  obtain ⟨c, h1, h2⟩ := apart_spec (g ++ ["src".toList]) ws
  generalize apart (g ++ ["src".toList]) ws = p at hrel h1 h2
  obtain ⟨as, bs⟩ := p
  simp only at h1 h2
  have hpre : ∃ s, rel (join2 (abs g) "src".toList ++ ['/']) (abs ws) = some s ∧ "../".toList.isPrefixOf s = true := by
    cases as with
    | nil => exact absurd ⟨bs, by rw [h1]; simpa using h2.symm⟩ hout
    | cons a as =>
      refine ⟨_, hrel, ?_⟩
      rw [List.isPrefixOf_iff_prefix]
      cases as with
      | cons b as => exact ⟨join '/' (as.map (fun _ => ['.', '.']) |> fun l => (['.', '.'] :: l) ++ bs), by
          simp only [List.map_cons, List.cons_append, join_cons]; rfl⟩
      | nil =>
        cases bs with
        | nil =>
          have := List.append_inj_left' h1 rfl
          exact absurd (by rw [h2, this]; simp) hne
        | cons b bs => exact ⟨join '/' (b :: bs), by
            simp only [List.map_cons, List.map_nil, List.cons_append, List.nil_append, join_cons]; rfl⟩
  obtain ⟨s, hs, hd⟩ := hpre
  unfold gopathLoop
  rw [hs]
  simp only [hd]
  rfl

example : pkgPathFromGOPATH env "/home/example.com/p".toList = none := by decide +kernel

/-- `$GOPATH/src/example.com/p` -/
example : pkgPathFromGOPATH env "/root/go/src/example.com/p".toList = some "example.com".toList := by decide +kernel

/-- The directory above `src` is in no package, but is accepted. -/
theorem above_src_accepted : pkgPathFromGOPATH env "/root/go".toList = some ['.'] := by decide +kernel

/-! ### Names -/

/-- If all files are of one package, this is the name found.  Missing for the property: directories with several packages
(files excluded by build constraints), where the order of the map decides (`name_by_chance`). -/
theorem name_found_partial (n : Str) (packages order : List Str) (h : packages ≠ []) (hall : ∀ p ∈ packages, p = n)
    (hp : order.Perm packages) : pkgName order = n := by
  have h1 : order ≠ [] := fun he => h (by rw [he] at hp; exact hp.nil_eq.symm)
  have h2 : ∀ p ∈ order, p = n := fun p hm => hall p (hp.mem_iff.1 hm)
  unfold pkgName
  have : ∀ (l : List Str) (a : Str), l ≠ [] → (∀ p ∈ l, p = n) → l.foldl (fun _ x => x) a = n := by
    intro l
    induction l with
    | nil => intro _ h; exact absurd rfl h
    | cons x l ih =>
      intro a _ hl
      cases l with
      | nil => exact hl x (by simp)
      | cons y l => exact ih x (by simp) (fun p hm => hl p (by simp [hm]))
  exact this order [] h1 h2

example : pkgName ["p".toList] = "p".toList := by decide +kernel

/-- A package and a program excluded by a build constraint in the same directory: both names are possible. -/
theorem name_by_chance : ["p".toList, "main".toList].Perm ["main".toList, "p".toList] ∧
    pkgName ["p".toList, "main".toList] ≠ pkgName ["main".toList, "p".toList] :=
  ⟨List.Perm.swap _ _ _, by decide +kernel⟩

/-! ### Clean paths -/

/-- Walk from a directory (its elements, the last one first): ".." goes up, at most to the root. -/
def walk : List Str → List Str → List Str
  | d, [] => d
  | d, w :: ws => if w = [] ∨ w = ['.'] then walk d ws else if w = ['.', '.'] then walk d.tail ws else walk (w :: d) ws

theorem walk_append : ∀ (d a b : List Str), walk d (a ++ b) = walk (walk d a) b
  | d, [], b => rfl
  | d, w :: a, b => by
    simp only [List.cons_append, walk]
    split
    · exact walk_append d a b
    split
    · exact walk_append d.tail a b
    · exact walk_append (w :: d) a b

theorem cleanElems_walk (rooted : Bool) : ∀ (ws acc d : List Str), (∀ a ∈ acc, a ≠ [] ∧ a ≠ ['.']) →
    (rooted = true → d = [] ∧ ['.', '.'] ∉ acc) → walk d (cleanElems rooted ws acc) = walk (walk d acc.reverse) ws
  | [], acc, d, _, _ => rfl
  | w :: ws, acc, d, ha, hr => by
    unfold cleanElems
    by_cases h1 : w = [] ∨ w = ['.']
    · rw [if_pos h1, cleanElems_walk rooted ws acc d ha hr]
      simp only [walk, if_pos h1]
    · rw [if_neg h1]
      by_cases h2 : w = ['.', '.']
      · rw [if_pos h2]
        cases acc with
        | nil =>
          simp only
          cases rooted with
          | true =>
            rw [if_pos rfl, cleanElems_walk true ws [] d (by simp) (fun h => ⟨(hr h).1, by simp⟩), (hr rfl).1]
            simp only [walk, List.reverse_nil, if_neg h1, if_pos h2, List.tail_nil]
          | false =>
            rw [if_neg (by simp), cleanElems_walk false ws [['.', '.']] d (by simp) (by simp)]
            simp [walk, h2]
        | cons a acc =>
          simp only
          by_cases h3 : a = ['.', '.']
          · rw [if_pos h3]
            have hf : rooted = false := by
              cases rooted with
              | true => exact absurd (by rw [h3]; simp) (hr rfl).2
              | false => rfl
            subst hf
            rw [cleanElems_walk false ws (['.', '.'] :: a :: acc) d (by
              intro b hb
              rcases List.mem_cons.1 hb with rfl | hb
              · simp
              · exact ha b hb) (by simp)]
            simp only [List.reverse_cons, walk_append, walk, if_neg h1, if_pos h2]
            simp
          · rw [if_neg h3, cleanElems_walk rooted ws acc d (fun b hb => ha b (by simp [hb]))
              (fun h => ⟨(hr h).1, fun hm => (hr h).2 (by simp [hm])⟩)]
            have h4 := ha a (by simp)
            simp only [List.reverse_cons, walk_append, walk, if_neg h1, if_pos h2]
            rw [if_neg (by simp [h4]), if_neg h3]
            rfl
      · rw [if_neg h2, cleanElems_walk rooted ws (w :: acc) d (by
          intro b hb
          rcases List.mem_cons.1 hb with rfl | hb
          · simpa using h1
          · exact ha b hb) (fun h => ⟨(hr h).1, by
            intro hm
            rcases List.mem_cons.1 hm with hm | hm
            · exact h2 hm.symm
            · exact (hr h).2 hm⟩)]
        simp only [List.reverse_cons, walk_append, walk, if_neg h1, if_neg h2]

theorem split_words (sep : Char) : ∀ s : Str, ∀ w ∈ split sep s, sep ∉ w := by
  intro s
  induction s with
  | nil => simp [split]
  | cons c s ih =>
    intro w hw
    simp only [split] at hw
    split at hw
    · rcases List.mem_cons.1 hw with rfl | hw
      · simp
      · exact ih w hw
    · rename_i hc
      split at hw
      · simp only [List.mem_singleton] at hw
        subst hw
        simpa using fun h => hc h.symm
      · rename_i v vs hv
        rcases List.mem_cons.1 hw with rfl | hw
        · have h1 := ih v (by rw [hv]; simp)
          simp only [List.mem_cons, not_or]
          exact ⟨fun h => hc h.symm, h1⟩
        · exact ih w (by rw [hv]; simp [hw])

/-- A clean path leads to the same place. -/
theorem clean_same_place (p : Str) (d : List Str) (hd : p.head? = some '/' → d = []) :
    walk d (split '/' (clean p)) = walk d (split '/' p) := by
  have hno : ∀ (r : Bool) (ws acc : List Str), (∀ w ∈ ws, '/' ∉ w) → (∀ w ∈ acc, '/' ∉ w) → ∀ w ∈ cleanElems r ws acc, '/' ∉ w := by
    intro r ws
    induction ws with
    | nil => intro acc _ ha w hw; exact ha w (by simpa [cleanElems] using hw)
    | cons v ws ih =>
      intro acc hws ha
      have h1 : ∀ w ∈ ws, '/' ∉ w := fun w hw => hws w (by simp [hw])
      unfold cleanElems
      split
      · exact ih acc h1 ha
      split
      · split
        · split
          · exact ih [] h1 (by simp)
          · exact ih _ h1 (by simp)
        · rename_i a acc
          have h2 : ∀ w ∈ acc, '/' ∉ w := fun w hw => ha w (by simp [hw])
          split
          · refine ih _ h1 ?_
            intro w hw
            rcases List.mem_cons.1 hw with rfl | hw
            · simp
            · exact ha w hw
          · exact ih _ h1 h2
      · refine ih _ h1 ?_
        intro w hw
        rcases List.mem_cons.1 hw with rfl | hw
        · exact hws _ (by simp)
        · exact ha w hw
  have hws := hno false (split '/' p) [] (split_words '/' p) (by simp)
  have hws' := hno true (split '/' p) [] (split_words '/' p) (by simp)
  unfold clean
  split
  · rename_i h; subst h; rfl
  split
  · rename_i h
    have hd := hd h
    subst hd
    have h1 := cleanElems_walk true (split '/' p) [] [] (by simp) (by simp)
    rw [← List.nil_append ('/' :: _), split_more '/' [] _ (by simp)]
    simp only [walk, true_or, if_true]
    rw [show walk [] (split '/' p) = walk (walk [] ([] : List Str).reverse) (split '/' p) from rfl, ← h1]
    by_cases hn : cleanElems true (split '/' p) [] = []
    · rw [hn]; rfl
    · rw [split_join '/' _ hn hws']
  · simp only
    have h1 := cleanElems_walk false (split '/' p) [] d (by simp) (by simp)
    rw [show walk d (split '/' p) = walk (walk d ([] : List Str).reverse) (split '/' p) from rfl, ← h1]
    split
    · rename_i hn
      rw [hn]; rfl
    · rename_i hn
      rw [split_join '/' _ hn hws]

/-- a path with two steps up -/
example : clean "../x/../../y".toList = "../../y".toList ∧
    walk [['c'], ['b'], ['a']] (split '/' "../../y".toList) = [['y'], ['a']] := by decide +kernel

end Verif.Props.PkgPath
