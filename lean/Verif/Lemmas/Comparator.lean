import Verif.Model.Comparator
import Verif.Spec.TreeEq

/-! Lemmas on the comparing program. -/

set_option linter.unusedSimpArgs false

namespace Verif.Comparator

open Verif.Ast Verif.TreeEq

/-- What is compared of a node. -/
abbrev Label := Option NodeType × Option (List Char)

/-- What is compared of a node. -/
def label (n : Node) : Label := (n.type?, text? n)

mutual
/-- The labels of the nodes sent, in order. -/
def labels : Node → List Label
  | .stream docs => label (.stream docs) :: labelsL docs
  | .properties t a => label (.properties t a) :: (labels a ++ labels t)
  | .content p c => label (.content p c) :: (labels p ++ labels c)
  | .sequence es => label (.sequence es) :: labelsL es
  | .mapping es => label (.mapping es) :: labelsL es
  | .mappingEntry k v => label (.mappingEntry k v) :: (labels k ++ labels v)
  | .tag t => [label (.tag t)]
  | .anchor t => [label (.anchor t)]
  | .alias t => [label (.alias t)]
  | .text t q => [label (.text t q)]
  | .null => [label .null]
  | .nil | .basic _ | .blockHeader _ _ | .indent _ => []

/-- The same for a list of nodes. -/
def labelsL : List Node → List Label
  | [] => []
  | n :: ns => labels n ++ labelsL ns
end

/-- The labels a walking goroutine will still send. -/
def workLabels (w : List Job) : List Label := labelsL (w.map Job.node)

/-- The labels a walking goroutine will still send. -/
def Producer.labels : Producer → List Label
  | .running w => workLabels w
  | .closed => []

theorem labelsL_append (as bs : List Node) : labelsL (as ++ bs) = labelsL as ++ labelsL bs := by
  induction as with
  | nil => simp [labelsL]
  | cons a as ih => simp [labelsL, ih]

theorem map_must (ns : List Node) : (ns.map Job.must).map Job.node = ns := by
  induction ns with
  | nil => rfl
  | cons n ns ih => simpa [Job.node] using ih

theorem labels_invisible {n : Node} (h : visible n = false) : labels n = [] := by
  cases n <;> simp [visible] at h <;> simp [labels]

theorem labels_visible {n : Node} (h : visible n = true) : labels n = label n :: workLabels (jobs n) := by
  cases n <;> simp [visible] at h <;>
    simp [labels, workLabels, jobs, labelsL, Job.node, List.map_map, Function.comp_def]

theorem internal_labels {p p'} (h : Internal p (some p')) : p'.labels = p.labels := by
  cases h with
  | skipNil => simp [Producer.labels, workLabels, labelsL, Job.node, labels]
  | skip _ hv => simp [Producer.labels, workLabels, labelsL, labels_invisible hv]
  | close => simp [Producer.labels, workLabels, labelsL]

theorem recv_some {p n p'} (h : Recv p (some n) p') : visible n = true ∧ p.labels = label n :: p'.labels := by
  cases h with
  | item hv =>
    refine ⟨hv, ?_⟩
    simp [Producer.labels, workLabels, labelsL, labels_visible hv, labelsL_append]

theorem recv_none {p p'} (h : Recv p none p') : p = .closed ∧ p' = .closed := by
  cases h; exact ⟨rfl, rfl⟩

theorem compare_label {a b : Node} (ha : visible a = true) (hb : visible b = true) :
    compareNodes (some a) (some b) = true ↔ label a = label b := by
  cases a <;> simp [visible] at ha <;> cases b <;> simp [visible] at hb <;>
    simp [compareNodes, label, text?, Node.type?]

theorem judge_some {a b : Node} (ha : visible a = true) (hb : visible b = true) :
    judge (some a) (some b) = if label a = label b then .recvFirst else .drainFirst false := by
  have := compare_label ha hb
  by_cases hl : label a = label b
  · rw [if_pos hl]; simp [judge, this.2 hl]
  · rw [if_neg hl]
    have hc : compareNodes (some a) (some b) = false := by
      cases hc : compareNodes (some a) (some b)
      · rfl
      · exact absurd (this.1 hc) hl
    simp [judge, hc]

/-- The invariant of the comparison: what has been received agrees so far. -/
def Good (la lb : List Label) : Sys → Prop
  | .crashed => True
  | .live p q .recvFirst => ∃ pre, la = pre ++ p.labels ∧ lb = pre ++ q.labels
  | .live p q (.recvSecond (some n)) =>
    visible n = true ∧ ∃ pre, la = pre ++ label n :: p.labels ∧ lb = pre ++ q.labels
  | .live p q (.recvSecond none) => p = .closed ∧ lb = la ++ q.labels
  | .live _ _ (.drainFirst r) => r = decide (la = lb)
  | .live p _ (.drainSecond r) => p = .closed ∧ r = decide (la = lb)
  | .live p q (.done r) => p = .closed ∧ q = .closed ∧ r = decide (la = lb)

theorem good_internal_first {la lb p p' q c} (h : Internal p (some p')) (hg : Good la lb (.live p q c)) :
    Good la lb (.live p' q c) := by
  have hl := internal_labels h
  cases c with
  | recvFirst => simpa [Good, hl] using hg
  | recvSecond x =>
    cases x with
    | some n => simpa [Good, hl] using hg
    | none => simp [Good] at hg; rw [hg.1] at h; cases h
  | drainFirst r => simpa [Good] using hg
  | drainSecond r => simp [Good] at hg; rw [hg.1] at h; cases h
  | done r => simp [Good] at hg; rw [hg.1] at h; cases h

theorem good_internal_second {la lb p q q' c} (h : Internal q (some q')) (hg : Good la lb (.live p q c)) :
    Good la lb (.live p q' c) := by
  have hl := internal_labels h
  cases c with
  | recvFirst => simpa [Good, hl] using hg
  | recvSecond x =>
    cases x with
    | some n => simpa [Good, hl] using hg
    | none => simpa [Good, hl] using hg
  | drainFirst r => simpa [Good] using hg
  | drainSecond r => simpa [Good] using hg
  | done r => simp [Good] at hg; rw [hg.2.1] at h; cases h

theorem good_step {la lb s s'} (h : Step s s') (hg : Good la lb s) : Good la lb s' := by
  cases h with
  | first h => exact good_internal_first h hg
  | second h => exact good_internal_second h hg
  | firstCrash => trivial
  | secondCrash => trivial
  | @recvFirst p x p' q h =>
    obtain ⟨pre, ha, hb⟩ := hg
    cases x with
    | some n =>
      obtain ⟨hv, hl⟩ := recv_some h
      exact ⟨hv, pre, by rw [ha, hl], hb⟩
    | none =>
      obtain ⟨rfl, rfl⟩ := recv_none h
      refine ⟨rfl, ?_⟩
      simp [Producer.labels] at ha
      rw [hb, ha]
  | @recvSecond p q y q' x h =>
    cases x with
    | some n =>
      obtain ⟨hv, pre, ha, hb⟩ := hg
      cases y with
      | some m =>
        obtain ⟨hv', hl⟩ := recv_some h
        rw [judge_some hv hv']
        by_cases hlab : label n = label m
        · rw [if_pos hlab]
          refine ⟨pre ++ [label n], ?_, ?_⟩
          · simp [ha]
          · simp [hb, hl, hlab]
        · rw [if_neg hlab]
          show false = decide _
          rw [eq_comm, decide_eq_false_iff_not, ha, hb, hl]
          simp [hlab]
      | none =>
        obtain ⟨rfl, rfl⟩ := recv_none h
        show false = decide _
        rw [eq_comm, decide_eq_false_iff_not, ha, hb]
        simp [Producer.labels]
    | none =>
      obtain ⟨rfl, hb⟩ := hg
      cases y with
      | some m =>
        obtain ⟨hv', hl⟩ := recv_some h
        show false = decide _
        rw [eq_comm, decide_eq_false_iff_not, hb, hl]
        simp
      | none =>
        obtain ⟨rfl, rfl⟩ := recv_none h
        show true = decide _
        simp [hb, Producer.labels]
  | drainFirst h => exact hg
  | drainFirstEnd h => obtain ⟨rfl, rfl⟩ := recv_none h; exact ⟨rfl, hg⟩
  | drainSecond h => exact hg
  | drainSecondEnd h => obtain ⟨rfl, rfl⟩ := recv_none h; exact ⟨hg.1, rfl, hg.2⟩

/-! ### every walking goroutine can go on -/

theorem producer_progress (p : Producer) : p = .closed ∨ (∃ o, Internal p o) ∨ ∃ n p', Recv p (some n) p' := by
  cases p with
  | closed => exact .inl rfl
  | running w =>
    cases w with
    | nil => exact .inr (.inl ⟨_, .close⟩)
    | cons j w =>
      by_cases hv : visible j.node = true
      · exact .inr (.inr ⟨_, _, .item hv⟩)
      · have hv' : visible j.node = false := by simpa using hv
        by_cases hn : j.node = .nil
        · cases j with
          | must n => cases hn; exact .inr (.inl ⟨_, .crash⟩)
          | may n => cases hn; exact .inr (.inl ⟨_, .skipNil⟩)
        · exact .inr (.inl ⟨_, .skip hn hv'⟩)

theorem internal_first_step {p o} (q c) (h : Internal p o) : ∃ s', Step (.live p q c) s' := by
  cases o with
  | none => exact ⟨_, .firstCrash h⟩
  | some p' => exact ⟨_, .first h⟩

theorem internal_second_step {q o} (p c) (h : Internal q o) : ∃ s', Step (.live p q c) s' := by
  cases o with
  | none => exact ⟨_, .secondCrash h⟩
  | some q' => exact ⟨_, .second h⟩

theorem progress {la lb p q c} (hg : Good la lb (.live p q c)) :
    (∃ s', Step (.live p q c) s') ∨ (.live p q c = Sys.live .closed .closed (.done (decide (la = lb)))) := by
  cases c with
  | recvFirst =>
    left
    rcases producer_progress p with rfl | ⟨o, h⟩ | ⟨n, p', h⟩
    · exact ⟨_, .recvFirst .closed⟩
    · exact internal_first_step _ _ h
    · exact ⟨_, .recvFirst h⟩
  | recvSecond x =>
    left
    rcases producer_progress q with rfl | ⟨o, h⟩ | ⟨n, p', h⟩
    · exact ⟨_, .recvSecond .closed⟩
    · exact internal_second_step _ _ h
    · exact ⟨_, .recvSecond h⟩
  | drainFirst r =>
    left
    rcases producer_progress p with rfl | ⟨o, h⟩ | ⟨n, p', h⟩
    · exact ⟨_, .drainFirstEnd .closed⟩
    · exact internal_first_step _ _ h
    · exact ⟨_, .drainFirst h⟩
  | drainSecond r =>
    left
    rcases producer_progress q with rfl | ⟨o, h⟩ | ⟨n, p', h⟩
    · exact ⟨_, .drainSecondEnd .closed⟩
    · exact internal_second_step _ _ h
    · exact ⟨_, .drainSecond h⟩
  | done r =>
    right
    obtain ⟨rfl, rfl, rfl⟩ := hg
    rfl

/-! ### termination -/

/-- An upper bound for the steps of a list of calls. -/
noncomputable def workSize : List Job → Nat
  | [] => 0
  | j :: w => sizeOf j.node + workSize w

/-- An upper bound for the steps of a walking goroutine. -/
noncomputable def Producer.size : Producer → Nat
  | .running w => workSize w + 1
  | .closed => 0

/-- An upper bound for the steps of the comparing goroutine which are not accompanied by one of the others. -/
def Consumer.size : Consumer → Nat
  | .recvFirst => 4
  | .recvSecond _ => 3
  | .drainFirst _ => 2
  | .drainSecond _ => 1
  | .done _ => 0

/-- An upper bound for the number of steps. -/
noncomputable def Sys.size : Sys → Nat
  | .live p q c => 2 * p.size + 2 * q.size + c.size + 1
  | .crashed => 0

theorem node_size_pos (n : Node) : 0 < sizeOf n := by
  cases n <;> simp <;> omega

theorem workSize_append (v w : List Job) : workSize (v ++ w) = workSize v + workSize w := by
  induction v with
  | nil => simp [workSize]
  | cons j v ih => simp [workSize, ih]; omega

theorem workSize_must (ns : List Node) : workSize (ns.map Job.must) < sizeOf ns := by
  induction ns with
  | nil => simp [workSize]
  | cons n ns ih => simp [workSize, Job.node] at ih ⊢; omega

theorem workSize_jobs {n : Node} : workSize (jobs n) < sizeOf n := by
  cases n <;> simp [jobs, workSize, Job.node] <;> try omega
  all_goals rename_i ns; have := workSize_must ns; omega

theorem internal_size {p p'} (h : Internal p (some p')) : p'.size < p.size := by
  cases h with
  | skipNil => simp [Producer.size, workSize, Job.node]
  | @skip j w _ _ => have := node_size_pos j.node; simp [Producer.size, workSize]; omega
  | close => simp [Producer.size]

theorem recv_size {p n p'} (h : Recv p (some n) p') : p'.size < p.size := by
  cases h with
  | @item j w hv => have := @workSize_jobs j.node; simp [Producer.size, workSize, workSize_append]; omega

theorem judge_size (x y) : (judge x y).size ≤ 4 := by
  unfold judge
  split
  · simp [Consumer.size]
  · split <;> simp [Consumer.size]

theorem judge_none_right (x) : (judge x none).size = 2 := by
  cases x <;> simp [judge, compareNodes, Consumer.size]

theorem step_size {s s'} (h : Step s s') : s'.size < s.size := by
  cases h with
  | first h => have := internal_size h; simp [Sys.size]; omega
  | second h => have := internal_size h; simp [Sys.size]; omega
  | firstCrash => simp [Sys.size]
  | secondCrash => simp [Sys.size]
  | @recvFirst p x p' q h =>
    cases x with
    | some n => have := recv_size h; simp [Sys.size, Consumer.size]; omega
    | none => obtain ⟨rfl, rfl⟩ := recv_none h; simp [Sys.size, Consumer.size]
  | @recvSecond p q y q' x h =>
    cases y with
    | some n => have := recv_size h; have := judge_size x (some n); simp only [Sys.size, Consumer.size.eq_2]; omega
    | none => obtain ⟨rfl, rfl⟩ := recv_none h; simp only [Sys.size, Consumer.size.eq_2, judge_none_right]; omega
  | drainFirst h => have := recv_size h; simp [Sys.size, Consumer.size]; omega
  | drainFirstEnd h => obtain ⟨rfl, rfl⟩ := recv_none h; simp [Sys.size, Consumer.size]
  | drainSecond h => have := recv_size h; simp [Sys.size, Consumer.size]; omega
  | drainSecondEnd h => obtain ⟨rfl, rfl⟩ := recv_none h; simp [Sys.size, Consumer.size]

/-! ### panics -/

/-- No call of the list panics. -/
def Safe (w : List Job) : Prop := ∀ j ∈ w, (∃ n, j = .must n ∧ NoNil n) ∨ (∃ n, j = .may n ∧ NilOr n)

/-- No call of the goroutine panics. -/
def Producer.Safe : Producer → Prop
  | .running w => Comparator.Safe w
  | .closed => True

theorem safe_must {ns : List Node} (h : NoNils ns) : Safe (ns.map Job.must) := by
  induction ns with
  | nil => intro j hj; simp at hj
  | cons n ns ih =>
    cases h with
    | cons h hs =>
      intro j hj
      simp only [List.map_cons, List.mem_cons] at hj
      rcases hj with rfl | hj
      · exact .inl ⟨n, rfl, h⟩
      · exact ih hs j hj

theorem safe_may {a b : Node} (ha : NilOr a) (hb : NilOr b) : Safe [.may a, .may b] := by
  intro j hj
  simp only [List.mem_cons, List.not_mem_nil, or_false] at hj
  rcases hj with rfl | rfl
  · exact .inr ⟨_, rfl, ha⟩
  · exact .inr ⟨_, rfl, hb⟩

theorem safe_jobs {n : Node} (h : NoNil n) : Safe (jobs n) := by
  cases h with
  | stream h => exact safe_must h
  | properties ht ha => exact safe_may ha ht
  | content hp hc => exact safe_may hp hc
  | sequence h => exact safe_must h
  | mapping h => exact safe_must h
  | mappingEntry hk hv => exact safe_may hk hv
  | _ => intro j hj; simp [jobs] at hj

theorem safe_internal {p o} (h : Internal p o) (hs : p.Safe) : ∃ p', o = some p' ∧ p'.Safe := by
  cases h with
  | crash =>
    rcases hs (.must .nil) (by simp) with ⟨n, hn, hs⟩ | ⟨n, hn, _⟩
    · cases hn; cases hs
    · cases hn
  | skipNil => exact ⟨_, rfl, fun j hj => hs j (by simp [hj])⟩
  | skip => exact ⟨_, rfl, fun j hj => hs j (by simp [hj])⟩
  | close => exact ⟨_, rfl, trivial⟩

theorem safe_recv {p x p'} (h : Recv p x p') (hs : p.Safe) : p'.Safe := by
  cases h with
  | @item j w hv =>
    intro i hi
    simp only [List.mem_append] at hi
    rcases hi with hi | hi
    · have hn : NoNil j.node := by
        rcases hs j (by simp) with ⟨n, rfl, hn⟩ | ⟨n, rfl, hn⟩
        · exact hn
        · cases hn with
          | nil => simp [Job.node, visible] at hv
          | node hn => exact hn
      exact safe_jobs hn i hi
    · exact hs i (by simp [hi])
  | closed => trivial

/-- No goroutine panics. -/
def Sys.Safe : Sys → Prop
  | .live p q _ => p.Safe ∧ q.Safe
  | .crashed => False

theorem safe_step {s s'} (h : Step s s') (hs : s.Safe) : s'.Safe := by
  cases h with
  | first h => obtain ⟨_, hp, hp'⟩ := safe_internal h hs.1; cases hp; exact ⟨hp', hs.2⟩
  | second h => obtain ⟨_, hp, hp'⟩ := safe_internal h hs.2; cases hp; exact ⟨hs.1, hp'⟩
  | firstCrash h => obtain ⟨_, hp, _⟩ := safe_internal h hs.1; cases hp
  | secondCrash h => obtain ⟨_, hp, _⟩ := safe_internal h hs.2; cases hp
  | recvFirst h => exact ⟨safe_recv h hs.1, hs.2⟩
  | recvSecond h => exact ⟨hs.1, safe_recv h hs.2⟩
  | drainFirst h => exact ⟨safe_recv h hs.1, hs.2⟩
  | drainFirstEnd h => exact ⟨safe_recv h hs.1, hs.2⟩
  | drainSecond h => exact ⟨hs.1, safe_recv h hs.2⟩
  | drainSecondEnd h => exact ⟨hs.1, safe_recv h hs.2⟩

/-- Some call of the list will panic. -/
def Doomed (w : List Job) : Prop := ∃ j ∈ w, (∃ n, j = .must n ∧ ¬ NoNil n) ∨ (∃ n, j = .may n ∧ n ≠ .nil ∧ ¬ NoNil n)

/-- Some call of the goroutine will panic. -/
def Producer.Doomed : Producer → Prop
  | .running w => Comparator.Doomed w
  | .closed => False

theorem noNils_iff {ns : List Node} : NoNils ns ↔ ∀ n ∈ ns, NoNil n := by
  induction ns with
  | nil => simp [NoNils.nil]
  | cons n ns ih =>
    constructor
    · intro h
      cases h with
      | cons h hs => intro m hm; simp at hm; exact hm.elim (fun e => e ▸ h) (ih.1 hs m)
    · intro h
      exact .cons (h n (by simp)) (ih.2 fun m hm => h m (by simp [hm]))

theorem doomed_must {ns : List Node} (h : ¬ NoNils ns) : Doomed (ns.map Job.must) := by
  rw [noNils_iff] at h
  simp only [Classical.not_forall] at h
  obtain ⟨n, hn, hnn⟩ := h
  exact ⟨.must n, by simpa using hn, .inl ⟨n, rfl, hnn⟩⟩

theorem doomed_may {a b : Node} (h : ¬ (NilOr a ∧ NilOr b)) : Doomed [.may a, .may b] := by
  by_cases ha : NilOr a
  · have hb : ¬ NilOr b := fun hb => h ⟨ha, hb⟩
    exact ⟨.may b, by simp, .inr ⟨b, rfl, fun hn => hb (hn ▸ .nil), fun hn => hb (.node hn)⟩⟩
  · exact ⟨.may a, by simp, .inr ⟨a, rfl, fun hn => ha (hn ▸ .nil), fun hn => ha (.node hn)⟩⟩

theorem doomed_jobs {n : Node} (h0 : n ≠ .nil) (h : ¬ NoNil n) : visible n = true ∧ Doomed (jobs n) := by
  cases n with
  | nil => exact absurd rfl h0
  | basic => exact absurd .basic h
  | blockHeader => exact absurd .blockHeader h
  | indent => exact absurd .indent h
  | tag => exact absurd .tag h
  | anchor => exact absurd .anchor h
  | alias => exact absurd .alias h
  | text => exact absurd .text h
  | null => exact absurd .null h
  | stream docs => exact ⟨rfl, doomed_must fun hn => h (.stream hn)⟩
  | sequence es => exact ⟨rfl, doomed_must fun hn => h (.sequence hn)⟩
  | mapping es => exact ⟨rfl, doomed_must fun hn => h (.mapping hn)⟩
  | properties t a => exact ⟨rfl, doomed_may fun hn => h (.properties hn.2 hn.1)⟩
  | content p c => exact ⟨rfl, doomed_may fun hn => h (.content hn.1 hn.2)⟩
  | mappingEntry k v => exact ⟨rfl, doomed_may fun hn => h (.mappingEntry hn.1 hn.2)⟩

theorem invisible_noNil {n : Node} (h0 : n ≠ .nil) (h : visible n = false) : NoNil n := by
  cases n <;> simp [visible] at h
  · exact absurd rfl h0
  · exact .basic
  · exact .blockHeader
  · exact .indent

theorem doomed_internal {p p'} (h : Internal p (some p')) (hd : p.Doomed) : p'.Doomed := by
  cases h with
  | skipNil =>
    obtain ⟨j, hj, hjd⟩ := hd
    simp only [List.mem_cons] at hj
    rcases hj with rfl | hj
    · rcases hjd with ⟨n, hn, _⟩ | ⟨n, hn, h0, _⟩ <;> cases hn
      exact absurd rfl h0
    · exact ⟨j, hj, hjd⟩
  | @skip i w h0 hv =>
    obtain ⟨j, hj, hjd⟩ := hd
    simp only [List.mem_cons] at hj
    rcases hj with rfl | hj
    · have := invisible_noNil h0 hv
      rcases hjd with ⟨n, rfl, hn⟩ | ⟨n, rfl, _, hn⟩
      · exact absurd this hn
      · exact absurd this hn
    · exact ⟨j, hj, hjd⟩
  | close => obtain ⟨j, hj, _⟩ := hd; simp at hj

theorem doomed_recv {p x p'} (h : Recv p x p') (hd : p.Doomed) : p'.Doomed := by
  cases h with
  | @item i w hv =>
    obtain ⟨j, hj, hjd⟩ := hd
    simp only [List.mem_cons] at hj
    rcases hj with rfl | hj
    · have : Doomed (jobs j.node) := by
        rcases hjd with ⟨n, rfl, hn⟩ | ⟨n, rfl, h0, hn⟩
        · exact (doomed_jobs (by rintro rfl; simp [Job.node, visible] at hv) hn).2
        · exact (doomed_jobs h0 hn).2
      obtain ⟨k, hk, hkd⟩ := this
      exact ⟨k, by simp [hk], hkd⟩
    · exact ⟨j, by simp [hj], hjd⟩
  | closed => exact hd

/-- Some goroutine panics or will. -/
def Sys.Doomed : Sys → Prop
  | .live p q _ => p.Doomed ∨ q.Doomed
  | .crashed => True

theorem doomed_step {s s'} (h : Step s s') (hd : s.Doomed) : s'.Doomed := by
  cases h with
  | first h => exact hd.imp_left (doomed_internal h)
  | second h => exact hd.imp_right (doomed_internal h)
  | firstCrash h => trivial
  | secondCrash h => trivial
  | recvFirst h => exact hd.imp_left (doomed_recv h)
  | recvSecond h => exact hd.imp_right (doomed_recv h)
  | drainFirst h => exact hd.imp_left (doomed_recv h)
  | drainFirstEnd h => exact hd.imp_left (doomed_recv h)
  | drainSecond h => exact hd.imp_right (doomed_recv h)
  | drainSecondEnd h => exact hd.imp_right (doomed_recv h)

/-! ### trees -/

theorem present_eq (n : Node) : present n = visible n := by cases n <;> rfl

theorem missing_iff {n : Node} : Missing n ↔ visible n = false := by
  constructor
  · intro h; cases h <;> rfl
  · intro h
    cases n <;> simp [visible] at h
    · exact .nil
    · exact .basic
    · exact .blockHeader
    · exact .indent

theorem shape_invisible {n : Node} (h : visible n = false) : shape n = [] := by
  cases n <;> simp [visible] at h <;> simp [shape]

theorem same_visible {a b : Node} (h : Same a b) : visible a = visible b := by
  cases h with
  | missing ha hb => rw [missing_iff.1 ha, missing_iff.1 hb]
  | _ => rfl

theorem same_labels {a b : Node} (h : Same a b) : labels a = labels b ∧ shape a = shape b := by
  refine Same.rec (motive_1 := fun a b _ => labels a = labels b ∧ shape a = shape b)
    (motive_2 := fun as bs _ => labelsL as = labelsL bs ∧ shapes as = shapes bs ∧ here as = here bs)
    ?_ ?_ ?_ ?_ ?_ ?_ ?_ ?_ ?_ ?_ ?_ ?_ ?_ ?_ h
  · intro a b ha hb
    rw [missing_iff] at ha hb
    simp [labels_invisible ha, labels_invisible hb, shape_invisible ha, shape_invisible hb]
  · intro as bs _ ih; simp [labels, shape, label, Node.type?, text?, ih]
  · intro t a t' a' h1 h2 ih1 ih2
    simp [labels, shape, label, Node.type?, text?, here, present_eq, same_visible h1, same_visible h2, ih1, ih2]
  · intro t; simp
  · intro t; simp
  · intro t; simp
  · intro t q q'; simp [labels, shape, label, Node.type?, text?]
  · intro p c p' c' h1 h2 ih1 ih2
    simp [labels, shape, label, Node.type?, text?, here, present_eq, same_visible h1, same_visible h2, ih1, ih2]
  · intro as bs _ ih; simp [labels, shape, label, Node.type?, text?, ih]
  · intro as bs _ ih; simp [labels, shape, label, Node.type?, text?, ih]
  · intro k v k' v' h1 h2 ih1 ih2
    simp [labels, shape, label, Node.type?, text?, here, present_eq, same_visible h1, same_visible h2, ih1, ih2]
  · simp
  · simp
  · intro a b as bs h1 _ ih1 ih2
    simp [labelsL, shapes, here, present_eq, same_visible h1, ih1, ih2] at ih2 ⊢
    simpa [here] using ih2

mutual
theorem decode {a b : Node} {xs ys us vs} (hv : visible a = visible b) (hl : labels a ++ xs = labels b ++ ys)
    (hs : shape a ++ us = shape b ++ vs) : Same a b ∧ xs = ys ∧ us = vs := by
  by_cases hva : visible a = false
  · have hvb : visible b = false := by rw [← hv, hva]
    rw [labels_invisible hva, labels_invisible hvb] at hl
    rw [shape_invisible hva, shape_invisible hvb] at hs
    exact ⟨.missing (missing_iff.2 hva) (missing_iff.2 hvb), by simpa using hl, by simpa using hs⟩
  · have hva : visible a = true := by simpa using hva
    have hvb : visible b = true := by rw [← hv, hva]
    have ht : a.type? = b.type? := by
      have hl' := hl
      rw [labels_visible hva, labels_visible hvb] at hl'
      simp [label] at hl'
      exact hl'.1.1
    cases a <;> simp [visible] at hva <;> cases b <;> simp [visible] at hvb <;> simp [Node.type?] at ht
    case stream.stream as bs =>
      simp [labels, shape, label, Node.type?, text?] at hl hs
      obtain ⟨h, h1, h2⟩ := decodeL hs.1 hl hs.2
      exact ⟨.stream h, h1, h2⟩
    case sequence.sequence as bs =>
      simp [labels, shape, label, Node.type?, text?] at hl hs
      obtain ⟨h, h1, h2⟩ := decodeL hs.1 hl hs.2
      exact ⟨.sequence h, h1, h2⟩
    case mapping.mapping as bs =>
      simp [labels, shape, label, Node.type?, text?] at hl hs
      obtain ⟨h, h1, h2⟩ := decodeL hs.1 hl hs.2
      exact ⟨.mapping h, h1, h2⟩
    case properties.properties t a t' a' =>
      simp [labels, shape, label, Node.type?, text?, here, present_eq] at hl hs
      obtain ⟨h1, hl, hs'⟩ := decode hs.1.1 hl hs.2
      obtain ⟨h2, hl, hs'⟩ := decode hs.1.2 hl hs'
      exact ⟨.properties h2 h1, hl, hs'⟩
    case content.content t a t' a' =>
      simp [labels, shape, label, Node.type?, text?, here, present_eq] at hl hs
      obtain ⟨h1, hl, hs'⟩ := decode hs.1.1 hl hs.2
      obtain ⟨h2, hl, hs'⟩ := decode hs.1.2 hl hs'
      exact ⟨.content h1 h2, hl, hs'⟩
    case mappingEntry.mappingEntry t a t' a' =>
      simp [labels, shape, label, Node.type?, text?, here, present_eq] at hl hs
      obtain ⟨h1, hl, hs'⟩ := decode hs.1.1 hl hs.2
      obtain ⟨h2, hl, hs'⟩ := decode hs.1.2 hl hs'
      exact ⟨.mappingEntry h1 h2, hl, hs'⟩
    case tag.tag t u =>
      simp [labels, shape, label, Node.type?, text?] at hl hs
      obtain ⟨rfl, hl⟩ := hl
      exact ⟨.tag, hl, hs⟩
    case anchor.anchor t u =>
      simp [labels, shape, label, Node.type?, text?] at hl hs
      obtain ⟨rfl, hl⟩ := hl
      exact ⟨.anchor, hl, hs⟩
    case alias.alias t u =>
      simp [labels, shape, label, Node.type?, text?] at hl hs
      obtain ⟨rfl, hl⟩ := hl
      exact ⟨.alias, hl, hs⟩
    case text.text t q u q' =>
      simp [labels, shape, label, Node.type?, text?] at hl hs
      obtain ⟨rfl, hl⟩ := hl
      exact ⟨.text, hl, hs⟩
    case null.null =>
      simp [labels, shape, label, Node.type?, text?] at hl hs
      exact ⟨.null, hl, hs⟩
termination_by (sizeOf a, 0)

theorem decodeL {as bs : List Node} {xs ys us vs} (hh : here as = here bs) (hl : labelsL as ++ xs = labelsL bs ++ ys)
    (hs : shapes as ++ us = shapes bs ++ vs) : SameList as bs ∧ xs = ys ∧ us = vs := by
  match as, bs with
  | [], [] => simp [labelsL, shapes] at hl hs; exact ⟨.nil, hl, hs⟩
  | [], _ :: _ => simp [here] at hh
  | _ :: _, [] => simp [here] at hh
  | a :: as, b :: bs =>
    simp [labelsL, shapes, here, present_eq] at hh hl hs
    obtain ⟨h1, hl, hs⟩ := decode hh.1 hl hs
    obtain ⟨h2, hl, hs⟩ := decodeL (by simpa [here, present_eq] using hh.2) hl hs
    exact ⟨.cons h1 h2, hl, hs⟩
termination_by (sizeOf as, 0)
end

end Verif.Comparator
