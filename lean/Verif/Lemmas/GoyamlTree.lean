import Verif.Spec.GoyamlCursor
import Verif.Lemmas.GoyamlAnyBuilder
import Verif.Lemmas.RawTransformer

/-!
Nodes without aliases below them: generic decoding ends, and the raw transformer does nothing but remove the anchor.
-/

namespace Verif.GoyamlTree

open Verif.Generic Verif.Goyaml Verif.GoyamlCursor
open Verif.GoyamlAnyBuilder (GLib)

section any

open Verif.GoyamlAnyBuilder

theorem any_conv {lib : GLib} {h : Heap} {n : Nat} (ht : Tree h n) : ∀ a, ∃ a', Conv (fun f => visitNode lib h f n a) a' := by
  induction ht with
  | scalar hk => exact fun a => ⟨_, visit_scalar hk⟩
  | sequence hk _ ch =>
    intro a
    obtain ⟨⟨a1, s⟩, h1⟩ := items_conv ch { a with extractString := false } []
    by_cases he : a.extractString
    · exact ⟨_, visit_seq hk (Conv.bind h1 (Conv.congr (fun f => if_pos he) (Conv.pure _)))⟩
    · exact ⟨_, visit_seq hk (Conv.bind h1 (Conv.congr (fun f => if_neg he) (Conv.pure _)))⟩
  | mapping hk _ ch =>
    intro a
    obtain ⟨⟨a1, m⟩, h1⟩ := pairs_conv ch a []
    by_cases hm : a1.extractMergeMap
    · exact ⟨_, visit_map hk (Conv.bind h1 (Conv.congr (fun f => if_pos hm) (Conv.pure _)))⟩
    · by_cases he : a1.extractString
      · exact ⟨_, visit_map hk
          (Conv.bind h1 (Conv.congr (fun f => (if_neg hm).trans (if_pos he)) (Conv.pure _)))⟩
      · exact ⟨_, visit_map hk
          (Conv.bind h1 (Conv.congr (fun f => (if_neg hm).trans (if_neg he)) (Conv.pure _)))⟩

/-- Generic decoding of a tree ends. -/
theorem extract_conv {lib : GLib} {h : Heap} {n : Nat} (ht : Tree h n) :
    ∃ v, Conv (fun f => extractAnyValue lib h f n) v := by
  obtain ⟨a, ha⟩ := any_conv (lib := lib) ht {}
  by_cases he : a.hasErrors
  · exact ⟨_, Conv.bind ha (Conv.congr (fun f => if_pos he) (Conv.pure _))⟩
  · exact ⟨_, Conv.bind ha (Conv.congr (fun f => if_neg he) (Conv.pure _))⟩

end any

section raw

open Verif.RawTransformer

theorem Tree.anchor {h : Heap} {n : Nat} (ht : Tree h n) (m : Nat) (s : List Char) : Tree (setAnchor h m s) n := by
  induction ht with
  | @scalar n hk => exact .scalar (by rw [(setAnchor_kind h m s n).1]; exact hk)
  | @sequence n hk _ ih =>
    refine .sequence (by rw [(setAnchor_kind h m s n).1]; exact hk) fun c hc => ih c ?_
    rwa [setAnchor_content] at hc
  | @mapping n hk _ ih =>
    refine .mapping (by rw [(setAnchor_kind h m s n).1]; exact hk) fun c hc => ih c ?_
    rwa [setAnchor_content] at hc

/-- A transformer which has replaced nothing. -/
def still (h : Heap) (s : List Char) (met : List (List Char)) : RT := { heap := h, topLevelAnchor := s, metAnchors := met }

theorem meet_still (h : Heap) (s : List Char) (met : List (List Char)) (n : Nat) : ∃ met', meet n (still h s met) = still h s met' := by
  rw [meet]
  split
  · exact ⟨_, rfl⟩
  · exact ⟨_, rfl⟩

theorem children_conv {h : Heap} {s : List Char} {n : Nat}
    (ch : ∀ c ∈ (h n).content, Tree h c ∧ ∀ met, ∃ met', Conv (fun f => visitNode f c (still h s met)) (still h s met')) :
    ∀ k i, i + k = (h n).content.length → ∀ met, ∃ met',
      Conv (fun f => visitChildren (visitNode f) n k i (still h s met)) (still h s met') := by
  intro k
  induction k with
  | zero => exact fun i _ met => ⟨met, Conv.congr (fun f => by rw [visitChildren]) (Conv.pure _)⟩
  | succ k ih =>
    intro i hi met
    have hlt : i < (h n).content.length := by omega
    have hm : (h n).content[i] ∈ (h n).content := List.getElem_mem hlt
    obtain ⟨ht, hc⟩ := ch _ hm
    obtain ⟨met1, h1⟩ := hc met
    obtain ⟨met2, h2⟩ := ih (i + 1) (by omega) met1
    refine ⟨met2, ?_⟩
    have hna : (h (h n).content[i]).kind ≠ .alias := by
      cases ht with
      | scalar hk => simp [hk]
      | sequence hk => simp [hk]
      | mapping hk => simp [hk]
    refine Conv.congr (g' := fun f => (visitNode f (h n).content[i] (still h s met)).bind
      fun rt => visitChildren (visitNode f) n k (i + 1) rt) (fun f => ?_) (Conv.bind h1 h2)
    rw [visitChildren]
    have hg : ((still h s met).heap n).content[i]? = some (h n).content[i] := List.getElem?_eq_getElem hlt
    have hr : replaceAlias n i (h n).content[i] (still h s met) = .ok (still h s met) := by
      rw [replaceAlias, if_neg]
      exact hna
    simp only [hg, hr]
    rfl

theorem transform_conv {h : Heap} {s : List Char} {n : Nat} (ht : Tree h n) :
    ∀ met, ∃ met', Conv (fun f => visitNode f n (still h s met)) (still h s met') := by
  induction ht with
  | @scalar n hk =>
    intro met
    obtain ⟨met', hm⟩ := meet_still h s met n
    refine ⟨met', Conv.succ (g' := fun _ => .ok (still h s met')) (fun f => ?_) (Conv.pure _)⟩
    rw [visitNode]
    simp only [hm, show (still h s met').heap = h from rfl, hk]
  | @sequence n hk ht ih =>
    intro met
    obtain ⟨met', hm⟩ := meet_still h s met n
    obtain ⟨met2, h2⟩ := children_conv (fun c hc => ⟨ht c hc, ih c hc⟩) (h n).content.length 0 (by omega) met'
    refine ⟨met2, Conv.succ (fun f => ?_) h2⟩
    rw [visitNode]
    simp only [hm, show (still h s met').heap = h from rfl, hk]
  | @mapping n hk ht ih =>
    intro met
    obtain ⟨met', hm⟩ := meet_still h s met n
    obtain ⟨met2, h2⟩ := children_conv (fun c hc => ⟨ht c hc, ih c hc⟩) (h n).content.length 0 (by omega) met'
    refine ⟨met2, Conv.succ (fun f => ?_) h2⟩
    rw [visitNode]
    simp only [hm, show (still h s met').heap = h from rfl, hk]

theorem restore_still (h : Heap) (n : Nat) (met : List (List Char)) :
    restore n (still (setAnchor h n []) (h n).anchor met) = h := by
  funext p
  rw [restore, still, restoreAll]
  by_cases hp : p = n
  · subst hp
    show setAnchor (setAnchor h p []) p (h p).anchor p = h p
    rw [setAnchor_self, setAnchor_self]
  · show setAnchor (setAnchor h n []) n (h n).anchor p = h p
    rw [setAnchor_other hp, setAnchor_other hp]

/-- The raw transformer on a tree: the node without its anchor is seen, and the memory is as before. -/
theorem raw_conv {h : Heap} {n : Nat} (ht : Tree h n) :
    Conv (fun f => rawTransform f n h) ((n, unanchored h n), h) := by
  obtain ⟨met, hm⟩ := transform_conv (s := (h n).anchor) (Tree.anchor ht n []) []
  have hna : (h n).kind ≠ .alias := by
    cases ht with
    | scalar hk => simp [hk]
    | sequence hk => simp [hk]
    | mapping hk => simp [hk]
  have h1 : Conv (fun f => transform f n (newRawTransformer h)) (n, still (setAnchor h n []) (h n).anchor met) := by
    refine Conv.bind hm (Conv.congr (fun f => ?_) (Conv.pure _))
    rw [if_neg]
    rw [still, (setAnchor_kind h n [] n).1]
    exact hna
  refine Conv.bind h1 (Conv.congr (fun f => ?_) (Conv.pure _))
  simp only [restore_still]
  rfl

end raw

end Verif.GoyamlTree
