import Mathlib.Data.List.Induction
import Verif.Spec.RecorderShared
import Verif.Proofs.OpenTracing

/-! # A `Recorder` used by several goroutines -/

namespace Appdash

open Spec

/-- The error that a goroutine has still to report to the collector. -/
def unreported : RecThread → List (RecMethod × RecErr)
  | ⟨.reporting m err, _⟩ => [(m, err)]
  | _ => []

/-- The error that a goroutine has still to note. -/
def unnoted : RecThread → List (RecMethod × RecErr)
  | ⟨.reporting m err, _⟩ => [(m, err)]
  | ⟨.noting m err, _⟩ => [(m, err)]
  | _ => []

theorem reported_step {logger : Bool} {s s' : SharedRec} {i : Nat} {a : RecAct} (h : SharedStep logger s i a s')
    {R M : List (RecMethod × RecErr)} (I : (R ++ s.threads.flatMap unreported).Perm M) :
    (R ++ (reportedBy (i, a)).toList ++ s'.threads.flatMap unreported).Perm (M ++ (metBy (i, a)).toList) := by
  rw [List.perm_iff_count] at I ⊢
  intro x
  have I := I x
  rw [List.count_append] at I
  have key : ∀ {th th' : RecThread}, s.threads[i]? = some th → s'.threads = s.threads.set i th' →
      (reportedBy (i, a)).toList.count x + (unreported th').count x = (metBy (i, a)).toList.count x + (unreported th).count x →
      (R ++ (reportedBy (i, a)).toList ++ s'.threads.flatMap unreported).count x = (M ++ (metBy (i, a)).toList).count x := by
    intro th th' h1 h2 h3
    have := (List.perm_iff_count.1 (flatMap_set unreported h1 th')) x
    rw [h2]
    simp only [List.count_append] at this ⊢
    omega
  cases h with
  | @note m err todo h =>
    refine key (th' := ⟨.idle, todo⟩) h ?_ ?_
    · split <;> rfl
    · simp [reportedBy, metBy, unreported]
  | eventRead h => exact key h rfl (by simp [reportedBy, metBy, unreported])
  | eventWrite h => exact key h rfl (by simp [reportedBy, metBy, unreported])
  | eventBad h => exact key h rfl (by simp [reportedBy, metBy, unreported])
  | annotation h => exact key h rfl (by simp [reportedBy, metBy, unreported])
  | finishFirst h => exact key h rfl (by simp [reportedBy, metBy, unreported])
  | finishAgain h => exact key h rfl (by simp [reportedBy, metBy, unreported])
  | finishMark h => exact key h rfl (by simp [reportedBy, metBy, unreported])
  | finishTake h => exact key h rfl (by simp [reportedBy, metBy, unreported])
  | sendOk h => exact key h rfl (by simp [reportedBy, metBy, unreported])
  | sendFail h => exact key h rfl (by simp [reportedBy, metBy, unreported])
  | report h => exact key h rfl (by simp [reportedBy, metBy, unreported])
  | takeErrors h => exact key h rfl (by simp [reportedBy, metBy, unreported])

theorem noted_step {s s' : SharedRec} {i : Nat} {a : RecAct} (h : SharedStep false s i a s')
    {R M : List RecErr} (I : (R ++ s.errors ++ s.threads.flatMap fun th => (unnoted th).map Prod.snd).Perm M) :
    (R ++ tookBy (i, a) ++ s'.errors ++ s'.threads.flatMap fun th => (unnoted th).map Prod.snd).Perm
      (M ++ (metBy (i, a)).toList.map Prod.snd) := by
  rw [List.perm_iff_count] at I ⊢
  intro x
  have I := I x
  simp only [List.count_append] at I
  have key : ∀ {th th' : RecThread}, s.threads[i]? = some th → s'.threads = s.threads.set i th' →
      (tookBy (i, a)).count x + s'.errors.count x + ((unnoted th').map Prod.snd).count x =
        ((metBy (i, a)).toList.map Prod.snd).count x + s.errors.count x + ((unnoted th).map Prod.snd).count x →
      (R ++ tookBy (i, a) ++ s'.errors ++ s'.threads.flatMap fun th => (unnoted th).map Prod.snd).count x =
        (M ++ (metBy (i, a)).toList.map Prod.snd).count x := by
    intro th th' h1 h2 h3
    have := (List.perm_iff_count.1 (flatMap_set (fun th => (unnoted th).map Prod.snd) h1 th')) x
    rw [h2]
    simp only [List.count_append] at this ⊢
    omega
  cases h with
  | @note m err todo h =>
    refine key (th' := ⟨.idle, todo⟩) h (by simp [SharedRec.move]) ?_
    simp [tookBy, metBy, unnoted]
  | eventRead h => exact key h rfl (by simp [tookBy, metBy, unnoted, SharedRec.move])
  | eventWrite h => exact key h rfl (by simp [tookBy, metBy, unnoted, SharedRec.move])
  | eventBad h => exact key h rfl (by simp [tookBy, metBy, unnoted, SharedRec.move]; omega)
  | annotation h => exact key h rfl (by simp [tookBy, metBy, unnoted, SharedRec.move])
  | finishFirst h => exact key h rfl (by simp [tookBy, metBy, unnoted, SharedRec.move])
  | finishAgain h => exact key h rfl (by simp [tookBy, metBy, unnoted, SharedRec.move]; omega)
  | finishMark h => exact key h rfl (by simp [tookBy, metBy, unnoted, SharedRec.move])
  | finishTake h => exact key h rfl (by simp [tookBy, metBy, unnoted, SharedRec.move])
  | sendOk h => exact key h rfl (by simp [tookBy, metBy, unnoted, SharedRec.move])
  | sendFail h => exact key h rfl (by simp [tookBy, metBy, unnoted, SharedRec.move]; omega)
  | report h => exact key h rfl (by simp [tookBy, metBy, unnoted, SharedRec.move])
  | takeErrors h => exact key h rfl (by simp [tookBy, metBy, unnoted, SharedRec.move])

theorem logged_step {s s' : SharedRec} {i : Nat} {a : RecAct} (h : SharedStep true s i a s')
    {M : List (RecMethod × RecErr)} (I : (s.logged ++ s.threads.flatMap unnoted).Perm M) :
    (s'.logged ++ s'.threads.flatMap unnoted).Perm (M ++ (metBy (i, a)).toList) := by
  rw [List.perm_iff_count] at I ⊢
  intro x
  have I := I x
  simp only [List.count_append] at I
  have key : ∀ {th th' : RecThread}, s.threads[i]? = some th → s'.threads = s.threads.set i th' →
      s'.logged.count x + (unnoted th').count x =
        (metBy (i, a)).toList.count x + s.logged.count x + (unnoted th).count x →
      (s'.logged ++ s'.threads.flatMap unnoted).count x = (M ++ (metBy (i, a)).toList).count x := by
    intro th th' h1 h2 h3
    have := (List.perm_iff_count.1 (flatMap_set unnoted h1 th')) x
    rw [h2]
    simp only [List.count_append] at this ⊢
    omega
  cases h with
  | @note m err todo h =>
    refine key (th' := ⟨.idle, todo⟩) h (by simp [SharedRec.move]) ?_
    simp [metBy, unnoted]
  | eventRead h => exact key h rfl (by simp [metBy, unnoted, SharedRec.move])
  | eventWrite h => exact key h rfl (by simp [metBy, unnoted, SharedRec.move])
  | eventBad h => exact key h rfl (by simp [metBy, unnoted, SharedRec.move]; omega)
  | annotation h => exact key h rfl (by simp [metBy, unnoted, SharedRec.move])
  | finishFirst h => exact key h rfl (by simp [metBy, unnoted, SharedRec.move])
  | finishAgain h => exact key h rfl (by simp [metBy, unnoted, SharedRec.move]; omega)
  | finishMark h => exact key h rfl (by simp [metBy, unnoted, SharedRec.move])
  | finishTake h => exact key h rfl (by simp [metBy, unnoted, SharedRec.move])
  | sendOk h => exact key h rfl (by simp [metBy, unnoted, SharedRec.move])
  | sendFail h => exact key h rfl (by simp [metBy, unnoted, SharedRec.move]; omega)
  | report h => exact key h rfl (by simp [metBy, unnoted, SharedRec.move])
  | takeErrors h => exact key h rfl (by simp [metBy, unnoted, SharedRec.move])

theorem filterMap_snoc {α β : Type} (f : α → Option β) (l : List α) (x : α) :
    (l ++ [x]).filterMap f = l.filterMap f ++ (f x).toList := by
  rw [List.filterMap_append]
  cases h : f x <;> simp [h]

theorem new_flatMap {β : Type} (f : RecThread → List β) (hf : ∀ ops, f ⟨.idle, ops⟩ = []) (prog : List (List RecOp)) :
    (SharedRec.new prog).threads.flatMap f = [] := by
  simp [SharedRec.new, List.flatMap_map, hf]

theorem returned_flatMap {β : Type} (f : RecThread → List β) (hf : ∀ ops, f ⟨.idle, ops⟩ = []) {s : SharedRec} (h : AllReturned s) :
    s.threads.flatMap f = [] := by
  rw [List.flatMap_eq_nil_iff]
  intro th hth
  obtain ⟨h1, -⟩ := h th hth
  obtain ⟨pc, todo⟩ := th
  subst h1
  exact hf todo

variable {logger : Bool} {ok : SharedRec → Prop} {prog : List (List RecOp)} {h : List (Nat × RecAct)} {s : SharedRec}

theorem shared_reported {s0 : SharedRec} (e0 : s0 = SharedRec.new prog) (r : SharedRuns logger ok s0 h s) :
    (h.filterMap reportedBy ++ s.threads.flatMap unreported).Perm (h.filterMap metBy) := by
  induction r with
  | nil => subst e0; rw [new_flatMap _ (fun _ => rfl)]; exact List.Perm.refl _
  | snoc r st _ ih =>
    rw [filterMap_snoc, filterMap_snoc]
    exact reported_step st ih

theorem shared_noted {s0 : SharedRec} (e0 : s0 = SharedRec.new prog) (r : SharedRuns false ok s0 h s) :
    (h.flatMap tookBy ++ s.errors ++ s.threads.flatMap fun th => (unnoted th).map Prod.snd).Perm
      ((h.filterMap metBy).map Prod.snd) := by
  induction r with
  | nil => subst e0; rw [new_flatMap _ (fun _ => rfl)]; exact List.Perm.refl _
  | snoc r st _ ih =>
    rw [filterMap_snoc, List.map_append, List.flatMap_append]
    simpa using noted_step st ih

theorem shared_logged {s0 : SharedRec} (e0 : s0 = SharedRec.new prog) (r : SharedRuns true ok s0 h s) :
    (s.logged ++ s.threads.flatMap unnoted).Perm (h.filterMap metBy) := by
  induction r with
  | nil => subst e0; rw [new_flatMap _ (fun _ => rfl)]; exact List.Perm.refl _
  | snoc r st _ ih =>
    rw [filterMap_snoc]
    exact logged_step st ih

/-! ## `Annotation` -/

/-- What a goroutine has still to send by `Annotation`. -/
def unsent : RecThread → List (List Annotation)
  | ⟨.sending false as, todo⟩ => as :: todo.filterMap annotationArgs
  | ⟨_, todo⟩ => todo.filterMap annotationArgs

theorem sent_step {s s' : SharedRec} {i : Nat} {a : RecAct} (h : SharedStep logger s i a s') (k : Nat) {th : RecThread}
    (hk : s.threads[k]? = some th) : ∃ th', s'.threads[k]? = some th' ∧ (sentBy k (i, a)).toList ++ unsent th' = unsent th := by
  by_cases hik : i = k
  · subst hik
    have hl : i < s.threads.length := (List.getElem?_eq_some_iff.1 hk).1
    have key : ∀ {x x' : RecThread}, s.threads[i]? = some x → s'.threads = s.threads.set i x' →
        (sentBy i (i, a)).toList ++ unsent x' = unsent x →
        ∃ th', s'.threads[i]? = some th' ∧ (sentBy i (i, a)).toList ++ unsent th' = unsent th := by
      intro x x' h1 h2 h3
      rw [hk] at h1
      injection h1 with h1
      subst h1
      exact ⟨x', by rw [h2, List.getElem?_set_self hl], h3⟩
    cases h with
    | @note m err todo h =>
      refine key (x' := ⟨.idle, todo⟩) h ?_ rfl
      split <;> rfl
    | eventRead h => exact key h rfl rfl
    | eventWrite h => exact key h rfl rfl
    | eventBad h => exact key h rfl rfl
    | annotation h => exact key h rfl rfl
    | finishFirst h => exact key h rfl rfl
    | finishAgain h => exact key h rfl rfl
    | finishMark h => exact key h rfl rfl
    | finishTake h => exact key h rfl rfl
    | @sendOk fin as todo h => cases fin <;> exact key h rfl (by simp [sentBy, unsent])
    | @sendFail fin as err todo h => cases fin <;> exact key h rfl (by simp [sentBy, unsent])
    | report h => exact key h rfl rfl
    | takeErrors h => exact key h rfl rfl
  · have hs : sentBy k (i, a) = none := by
      cases a <;> try rfl
      rename_i fin as ans
      cases fin <;> simp [sentBy, hik]
    refine ⟨th, ?_, by rw [hs]; rfl⟩
    have key : ∀ {x' : RecThread}, s'.threads = s.threads.set i x' → s'.threads[k]? = some th := by
      intro x' h2
      rw [h2, List.getElem?_set_ne hik, hk]
    cases h with
    | @note m err todo h =>
      refine key (x' := ⟨.idle, todo⟩) ?_
      split <;> rfl
    | eventRead h => exact key rfl
    | eventWrite h => exact key rfl
    | eventBad h => exact key rfl
    | annotation h => exact key rfl
    | finishFirst h => exact key rfl
    | finishAgain h => exact key rfl
    | finishMark h => exact key rfl
    | finishTake h => exact key rfl
    | sendOk h => exact key rfl
    | sendFail h => exact key rfl
    | report h => exact key rfl
    | takeErrors h => exact key rfl

theorem shared_sent {s0 : SharedRec} (e0 : s0 = SharedRec.new prog) (r : SharedRuns logger ok s0 h s) {k : Nat} {ops : List RecOp}
    (hk : prog[k]? = some ops) :
    ∃ th, s.threads[k]? = some th ∧ h.filterMap (sentBy k) ++ unsent th = ops.filterMap annotationArgs := by
  induction r with
  | nil =>
    subst e0
    refine ⟨⟨.idle, ops⟩, ?_, rfl⟩
    simp [SharedRec.new, hk]
  | snoc r st _ ih =>
    obtain ⟨th, h1, h2⟩ := ih
    obtain ⟨th', h3, h4⟩ := sent_step st k h1
    refine ⟨th', h3, ?_⟩
    rw [filterMap_snoc, List.append_assoc, h4, h2]

theorem started_step {s s' : SharedRec} {i : Nat} {a : RecAct} (h : SharedStep logger s i a s') (k : Nat) {th : RecThread}
    (hk : s.threads[k]? = some th) : ∃ th', s'.threads[k]? = some th' ∧ (startedBy k (i, a)).toList ++ th'.todo = th.todo := by
  by_cases hik : i = k
  · subst hik
    have hl : i < s.threads.length := (List.getElem?_eq_some_iff.1 hk).1
    have key : ∀ {x x' : RecThread}, s.threads[i]? = some x → s'.threads = s.threads.set i x' →
        (startedBy i (i, a)).toList ++ x'.todo = x.todo →
        ∃ th', s'.threads[i]? = some th' ∧ (startedBy i (i, a)).toList ++ th'.todo = th.todo := by
      intro x x' h1 h2 h3
      rw [hk] at h1
      injection h1 with h1
      subst h1
      exact ⟨x', by rw [h2, List.getElem?_set_self hl], h3⟩
    cases h with
    | @note m err todo h =>
      refine key (x' := ⟨.idle, todo⟩) h ?_ (by simp [startedBy])
      split <;> rfl
    | eventRead h => exact key h rfl (by simp [startedBy])
    | eventWrite h => exact key h rfl (by simp [startedBy])
    | eventBad h => exact key h rfl (by simp [startedBy])
    | annotation h => exact key h rfl (by simp [startedBy])
    | finishFirst h => exact key h rfl (by simp [startedBy])
    | finishAgain h => exact key h rfl (by simp [startedBy])
    | finishMark h => exact key h rfl (by simp [startedBy])
    | finishTake h => exact key h rfl (by simp [startedBy])
    | @sendOk fin as todo h => cases fin <;> exact key h rfl (by simp [startedBy])
    | @sendFail fin as err todo h => cases fin <;> exact key h rfl (by simp [startedBy])
    | report h => exact key h rfl (by simp [startedBy])
    | takeErrors h => exact key h rfl (by simp [startedBy])
  · have hs : startedBy k (i, a) = none := by
      cases a <;> simp [startedBy, hik]
    refine ⟨th, ?_, by rw [hs]; rfl⟩
    have key : ∀ {x' : RecThread}, s'.threads = s.threads.set i x' → s'.threads[k]? = some th := by
      intro x' h2
      rw [h2, List.getElem?_set_ne hik, hk]
    cases h with
    | @note m err todo h =>
      refine key (x' := ⟨.idle, todo⟩) ?_
      split <;> rfl
    | eventRead h => exact key rfl
    | eventWrite h => exact key rfl
    | eventBad h => exact key rfl
    | annotation h => exact key rfl
    | finishFirst h => exact key rfl
    | finishAgain h => exact key rfl
    | finishMark h => exact key rfl
    | finishTake h => exact key rfl
    | sendOk h => exact key rfl
    | sendFail h => exact key rfl
    | report h => exact key rfl
    | takeErrors h => exact key rfl

theorem shared_started {s0 : SharedRec} (e0 : s0 = SharedRec.new prog) (r : SharedRuns logger ok s0 h s) {k : Nat} {ops : List RecOp}
    (hk : prog[k]? = some ops) :
    ∃ th, s.threads[k]? = some th ∧ h.filterMap (startedBy k) ++ th.todo = ops := by
  induction r with
  | nil =>
    subst e0
    refine ⟨⟨.idle, ops⟩, ?_, rfl⟩
    simp [SharedRec.new, hk]
  | snoc r st _ ih =>
    obtain ⟨th, h1, h2⟩ := ih
    obtain ⟨th', h3, h4⟩ := started_step st k h1
    refine ⟨th', h3, ?_⟩
    rw [filterMap_snoc, List.append_assoc, h4, h2]

theorem shared_logged_none {s0 : SharedRec} (e0 : s0 = SharedRec.new prog) (r : SharedRuns true ok s0 h s) :
    h.flatMap tookBy ++ s.errors = [] := by
  induction r with
  | nil => subst e0; rfl
  | snoc r st _ ih =>
    obtain ⟨i1, i2⟩ := List.append_eq_nil_iff.1 ih
    rw [List.flatMap_append, i1]
    cases st with
    | takeErrors h => simp [tookBy, i2]
    | note h => simp [tookBy, SharedRec.move, i2]
    | _ => simp [tookBy, SharedRec.move, i2]

/-! ## Exclusive calls of `Event` and `Finish` -/

/-- One for every goroutine that has begun `Finish` and not set `finished`. -/
def inFinishing : RecThread → List Unit
  | ⟨.finishing, _⟩ => [()]
  | _ => []

/-- One for every goroutine that has set `finished` and not read the annotations. -/
def inMarked : RecThread → List Unit
  | ⟨.marked, _⟩ => [()]
  | _ => []

/-- What `Finish` has still to send. -/
def inSending : RecThread → List (List Annotation)
  | ⟨.sending true as, _⟩ => [as]
  | _ => []

/-- A first call of `Finish` starts. -/
def firstBegun : Nat × RecAct → Bool
  | (_, .began .finish) => true
  | _ => false

/-- The events recorded before the first call of `Finish`. -/
def beforeFinish (h : List (Nat × RecAct)) : List Annotation := (h.takeWhile fun x => !firstBegun x).flatMap eventBegun

structure Excl (h : List (Nat × RecAct)) (s : SharedRec) : Prop where
  count : (s.threads.flatMap inFinishing).length + (s.threads.flatMap inMarked).length + (s.threads.flatMap inSending).length +
    (h.filterMap finishSent).length = if h.any firstBegun then 1 else 0
  finished : s.finished = true ↔ h.any firstBegun = true ∧ s.threads.flatMap inFinishing = []
  early : s.threads.flatMap inFinishing ≠ [] ∨ s.threads.flatMap inMarked ≠ [] → h.flatMap eventBegun = beforeFinish h
  sent : ∀ as ∈ s.threads.flatMap inSending ++ h.filterMap finishSent, as = beforeFinish h
  app : ∀ th ∈ s.threads, ∀ as, th.pc = .appending as → as = h.flatMap eventBegun
  idle : (∀ th ∈ s.threads, ∀ as, th.pc ≠ .appending as) → s.annotations = h.flatMap eventBegun

theorem takeWhile_all {α : Type} {p : α → Bool} {l : List α} (h : ∀ a ∈ l, p a = true) : l.takeWhile p = l := by
  have := List.takeWhile_append_of_pos (l₂ := []) h
  simpa using this

theorem beforeFinish_snoc (h : List (Nat × RecAct)) (x : Nat × RecAct) : beforeFinish (h ++ [x]) =
    if h.any firstBegun then beforeFinish h else if firstBegun x then beforeFinish h else beforeFinish h ++ eventBegun x := by
  unfold beforeFinish
  by_cases ha : h.any firstBegun = true
  · rw [if_pos ha]
    congr 1
    induction h with
    | nil => cases ha
    | cons y h ih =>
      rw [List.cons_append, List.takeWhile_cons, List.takeWhile_cons]
      cases hy : firstBegun y with
      | true => rfl
      | false =>
        rw [List.any_cons, hy, Bool.false_or] at ha
        simp [ih ha]
  · rw [if_neg ha]
    have hall : ∀ y ∈ h, (!firstBegun y) = true := by
      intro y hy
      cases hb : firstBegun y with
      | false => rfl
      | true => exact absurd (List.any_eq_true.2 ⟨y, hy, hb⟩) ha
    rw [List.takeWhile_append_of_pos hall, List.flatMap_append, takeWhile_all hall]
    cases hx : firstBegun x <;> simp [hx]

theorem beforeFinish_none {h : List (Nat × RecAct)} (ha : h.any firstBegun = false) : beforeFinish h = h.flatMap eventBegun := by
  unfold beforeFinish
  rw [takeWhile_all]
  intro y hy
  cases hb : firstBegun y with
  | false => rfl
  | true => rw [List.any_eq_true.2 ⟨y, hy, hb⟩] at ha; cases ha

/-- A goroutine that starts neither `Event` nor `Finish`, nor is within one, does not change what `Excl` is about. -/
theorem Excl.other {h : List (Nat × RecAct)} {s s' : SharedRec} {i : Nat} {a : RecAct} {th th' : RecThread} (E : Excl h s)
    (h1 : s.threads[i]? = some th) (h2 : s'.threads = s.threads.set i th') (h3 : s'.annotations = s.annotations)
    (h4 : s'.finished = s.finished) (e1 : inFinishing th' = inFinishing th) (e2 : inMarked th' = inMarked th)
    (e3 : (inSending th' ++ (finishSent (i, a)).toList).Perm (inSending th)) (e4 : eventBegun (i, a) = []) (e5 : firstBegun (i, a) = false)
    (e6 : ∀ as, th.pc = .appending as ↔ th'.pc = .appending as) : Excl (h ++ [(i, a)]) s' := by
  have p1 := flatMap_set inFinishing h1 th'
  have p2 := flatMap_set inMarked h1 th'
  have p3 := flatMap_set inSending h1 th'
  rw [← h2] at p1 p2 p3
  rw [e1] at p1
  rw [e2] at p2
  have q1 := (List.perm_append_right_iff _).1 p1
  have q2 := (List.perm_append_right_iff _).1 p2
  have n1 : s'.threads.flatMap inFinishing = [] ↔ s.threads.flatMap inFinishing = [] := by
    rw [← List.length_eq_zero_iff, ← List.length_eq_zero_iff, q1.length_eq]
  have n2 : s'.threads.flatMap inMarked = [] ↔ s.threads.flatMap inMarked = [] := by
    rw [← List.length_eq_zero_iff, ← List.length_eq_zero_iff, q2.length_eq]
  have hany : (h ++ [(i, a)]).any firstBegun = h.any firstBegun := by simp [e5]
  have hev : (h ++ [(i, a)]).flatMap eventBegun = h.flatMap eventBegun := by simp [e4]
  have hbf : beforeFinish (h ++ [(i, a)]) = beforeFinish h := by
    rw [beforeFinish_snoc, e5, e4]; simp
  have hl : i < s.threads.length := (List.getElem?_eq_some_iff.1 h1).1
  have hmem : ∀ x ∈ s'.threads, x ∈ s.threads ∨ x = th' := by
    intro x hx
    rw [h2] at hx
    exact (List.mem_or_eq_of_mem_set hx)
  refine ⟨?_, ?_, ?_, ?_, ?_, ?_⟩
  · rw [hany, filterMap_snoc, ← E.count, q1.length_eq, q2.length_eq]
    have l3 := p3.length_eq
    have l4 := e3.length_eq
    simp only [List.length_append] at l3 l4 ⊢
    omega
  · rw [hany, n1, h4]; exact E.finished
  · rw [hev, hbf, Ne, Ne, n1, n2]; exact E.early
  · intro as has
    rw [hbf]
    refine E.sent as ?_
    rw [filterMap_snoc] at has
    have : (s'.threads.flatMap inSending ++ (h.filterMap finishSent ++ (finishSent (i, a)).toList)).Perm
        (s.threads.flatMap inSending ++ h.filterMap finishSent) := by
      rw [List.perm_iff_count] at p3 e3 ⊢
      intro x
      have := p3 x
      have := e3 x
      simp only [List.count_append] at *
      omega
    exact this.subset has
  · intro x hx as hpc
    rw [hev]
    rcases hmem x hx with hx | rfl
    · exact E.app x hx as hpc
    · exact E.app th (List.mem_of_getElem? h1) as ((e6 as).2 hpc)
  · intro hn
    rw [hev, h3]
    refine E.idle ?_
    intro x hx as hpc
    obtain ⟨j, hj⟩ := List.getElem?_of_mem hx
    by_cases hij : i = j
    · subst hij
      rw [h1] at hj
      injection hj with hj
      subst hj
      exact hn th' (by rw [h2]; exact List.mem_set hl th') as ((e6 as).1 hpc)
    · exact hn x (by rw [h2]; exact List.mem_of_getElem? (by rw [List.getElem?_set_ne hij]; exact hj)) as hpc

theorem inFinishing_nil {th : RecThread} (h : ¬ Within th.pc) : inFinishing th = [] := by
  obtain ⟨pc, todo⟩ := th
  cases pc <;> first | rfl | exact absurd trivial h

theorem inMarked_nil {th : RecThread} (h : ¬ Within th.pc) : inMarked th = [] := by
  obtain ⟨pc, todo⟩ := th
  cases pc <;> first | rfl | exact absurd trivial h

theorem not_appending {th : RecThread} (h : ¬ Within th.pc) (as : List Annotation) : th.pc ≠ .appending as := by
  intro e
  rw [e] at h
  exact h trivial

/-- If goroutine `i` is within, the others are not. -/
theorem Spec.Exclusive.others {s : SharedRec} (X : Exclusive s) {i : Nat} {th : RecThread} (h : s.threads[i]? = some th) (hw : Within th.pc)
    {j : Nat} (hij : i ≠ j) {x : RecThread} (hj : s.threads[j]? = some x) : ¬ Within x.pc :=
  fun hx => hij (X i j th x h hj hw hx)

theorem Excl.step {h : List (Nat × RecAct)} {s s' : SharedRec} {i : Nat} {a : RecAct} (E : Excl h s) (st : SharedStep logger s i a s')
    (X : Exclusive s) (X' : Exclusive s') : Excl (h ++ [(i, a)]) s' := by
  cases st with
  | @note m err todo h1 =>
    refine E.other (th' := ⟨.idle, todo⟩) h1 ?_ ?_ ?_ rfl rfl (List.Perm.refl _) rfl rfl (by simp) <;> split <;> rfl
  | eventBad h1 => exact E.other h1 rfl rfl rfl rfl rfl (List.Perm.refl _) rfl rfl (by simp)
  | annotation h1 => exact E.other h1 rfl rfl rfl rfl rfl (List.Perm.refl _) rfl rfl (by simp)
  | finishAgain h1 => exact E.other h1 rfl rfl rfl rfl rfl (List.Perm.refl _) rfl rfl (by simp)
  | @sendOk fin as todo h1 =>
    cases fin <;> exact E.other h1 rfl rfl rfl rfl rfl (List.Perm.refl _) rfl rfl (by simp)
  | @sendFail fin as err todo h1 =>
    cases fin <;> exact E.other h1 rfl rfl rfl rfl rfl (List.Perm.refl _) rfl rfl (by simp)
  | report h1 => exact E.other h1 rfl rfl rfl rfl rfl (List.Perm.refl _) rfl rfl (by simp)
  | takeErrors h1 => exact E.other h1 rfl rfl rfl rfl rfl (List.Perm.refl _) rfl rfl (by simp)
  | @eventRead as todo h1 =>
    have hl : i < s.threads.length := (List.getElem?_eq_some_iff.1 h1).1
    have hi : (s.move i (.appending (s.annotations ++ as)) todo).threads[i]? = some ⟨.appending (s.annotations ++ as), todo⟩ := by
      simp [SharedRec.move, hl]
    have ho : ∀ j, i ≠ j → ∀ x, s.threads[j]? = some x → ¬ Within x.pc := by
      intro j hij x hx
      refine X'.others hi trivial hij ?_
      simp only [SharedRec.move]
      rw [List.getElem?_set_ne hij]
      exact hx
    have hw : ∀ x ∈ s.threads, ¬ Within x.pc := by
      intro x hx
      obtain ⟨j, hj⟩ := List.getElem?_of_mem hx
      by_cases hij : i = j
      · subst hij
        rw [h1] at hj
        injection hj with hj
        subst hj
        exact id
      · exact ho j hij x hj
    have f1 : s.threads.flatMap inFinishing = [] := List.flatMap_eq_nil_iff.2 fun x hx => inFinishing_nil (hw x hx)
    have f2 : s.threads.flatMap inMarked = [] := List.flatMap_eq_nil_iff.2 fun x hx => inMarked_nil (hw x hx)
    have p1 := flatMap_set inFinishing h1 ⟨.appending (s.annotations ++ as), todo⟩
    have p2 := flatMap_set inMarked h1 ⟨.appending (s.annotations ++ as), todo⟩
    have p3 := flatMap_set inSending h1 ⟨.appending (s.annotations ++ as), todo⟩
    rw [f1] at p1
    rw [f2] at p2
    have p1 : (s.threads.set i ⟨.appending (s.annotations ++ as), todo⟩).flatMap inFinishing = [] := by simpa [inFinishing] using p1
    have p2 : (s.threads.set i ⟨.appending (s.annotations ++ as), todo⟩).flatMap inMarked = [] := by simpa [inMarked] using p2
    have p3 : ((s.threads.set i ⟨.appending (s.annotations ++ as), todo⟩).flatMap inSending).Perm (s.threads.flatMap inSending) := by
      simpa [inSending] using p3
    have ha : s.annotations = h.flatMap eventBegun := E.idle fun x hx => not_appending (hw x hx)
    have hev : (h ++ [(i, RecAct.began (.event (.ok as)))]).flatMap eventBegun = h.flatMap eventBegun ++ as := by
      simp [eventBegun, eventAnnotations]
    have hany : (h ++ [(i, RecAct.began (.event (.ok as)))]).any firstBegun = h.any firstBegun := by simp [firstBegun]
    have hfs : (h ++ [(i, RecAct.began (.event (.ok as)))]).filterMap finishSent = h.filterMap finishSent := by
      rw [filterMap_snoc]; simp [finishSent]
    have hc := E.count
    rw [f1, f2] at hc
    refine ⟨?_, ?_, ?_, ?_, ?_, ?_⟩
    · rw [hany, hfs, ← hc]
      simp only [SharedRec.move, p1, p2, p3.length_eq]
    · rw [hany]
      have := E.finished
      rw [f1] at this
      simpa [SharedRec.move, p1] using this
    · simp only [SharedRec.move, p1, p2]
      intro hf
      simp at hf
    · intro b hb
      rw [hfs] at hb
      have hb' : b ∈ s.threads.flatMap inSending ++ h.filterMap finishSent := by
        simp only [SharedRec.move, List.mem_append] at hb ⊢
        rcases hb with hb | hb
        · exact .inl (p3.subset hb)
        · exact .inr hb
      rw [E.sent b hb', beforeFinish_snoc]
      rw [if_pos]
      have hlen : 0 < (s.threads.flatMap inSending).length + (h.filterMap finishSent).length := by
        rw [← List.length_append]; exact List.length_pos_of_mem hb'
      cases hh : h.any firstBegun with
      | true => rfl
      | false =>
        rw [hh] at hc
        simp only [List.length_nil, Bool.false_eq_true, if_false] at hc
        omega
    · intro x hx b hb
      rw [hev]
      simp only [SharedRec.move] at hx
      rcases List.mem_or_eq_of_mem_set hx with hx | rfl
      · exact absurd hb (not_appending (hw x hx) b)
      · injection hb with hb
        rw [← hb, ha]
    · intro hn
      exact absurd rfl (hn _ (List.mem_of_getElem? hi) (s.annotations ++ as))
  | @eventWrite as todo h1 =>
    have hl : i < s.threads.length := (List.getElem?_eq_some_iff.1 h1).1
    have ho : ∀ j, i ≠ j → ∀ x, s.threads[j]? = some x → ¬ Within x.pc := fun j hij x hx => X.others h1 trivial hij hx
    have hw : ∀ x ∈ s.threads.set i ⟨.idle, todo⟩, ¬ Within x.pc := by
      intro x hx
      obtain ⟨j, hj⟩ := List.getElem?_of_mem hx
      by_cases hij : i = j
      · subst hij
        rw [List.getElem?_set_self hl] at hj
        injection hj with hj
        subst hj
        exact id
      · rw [List.getElem?_set_ne hij] at hj
        exact ho j hij x hj
    have p1 := flatMap_set inFinishing h1 ⟨.idle, todo⟩
    have p2 := flatMap_set inMarked h1 ⟨.idle, todo⟩
    have p3 := flatMap_set inSending h1 ⟨.idle, todo⟩
    have g1 : (s.threads.set i ⟨.idle, todo⟩).flatMap inFinishing = [] := List.flatMap_eq_nil_iff.2 fun x hx => inFinishing_nil (hw x hx)
    have g2 : (s.threads.set i ⟨.idle, todo⟩).flatMap inMarked = [] := List.flatMap_eq_nil_iff.2 fun x hx => inMarked_nil (hw x hx)
    rw [g1] at p1
    rw [g2] at p2
    have f1 : s.threads.flatMap inFinishing = [] := by simpa [inFinishing] using p1.symm
    have f2 : s.threads.flatMap inMarked = [] := by simpa [inMarked] using p2.symm
    have p3 : ((s.threads.set i ⟨.idle, todo⟩).flatMap inSending).Perm (s.threads.flatMap inSending) := by simpa [inSending] using p3
    have hev : (h ++ [(i, RecAct.internal)]).flatMap eventBegun = h.flatMap eventBegun := by simp [eventBegun]
    have hany : (h ++ [(i, RecAct.internal)]).any firstBegun = h.any firstBegun := by simp [firstBegun]
    have hfs : (h ++ [(i, RecAct.internal)]).filterMap finishSent = h.filterMap finishSent := by rw [filterMap_snoc]; simp [finishSent]
    have hbf : beforeFinish (h ++ [(i, RecAct.internal)]) = beforeFinish h := by rw [beforeFinish_snoc]; simp [firstBegun, eventBegun]
    refine ⟨?_, ?_, ?_, ?_, ?_, ?_⟩
    · rw [hany, hfs, ← E.count, f1, f2]
      simp only [SharedRec.move, g1, g2, p3.length_eq]
    · rw [hany]
      have := E.finished
      rw [f1] at this
      simpa [SharedRec.move, g1] using this
    · simp only [SharedRec.move, g1, g2]
      intro hf
      simp at hf
    · intro b hb
      rw [hbf]
      refine E.sent b ?_
      rw [hfs] at hb
      simp only [SharedRec.move, List.mem_append] at hb ⊢
      rcases hb with hb | hb
      · exact .inl (p3.subset hb)
      · exact .inr hb
    · intro x hx b hb
      exact absurd hb (not_appending (hw x hx) b)
    · intro _
      rw [hev]
      exact E.app _ (List.mem_of_getElem? h1) as rfl
  | @finishFirst todo h1 hfin =>
    have hl : i < s.threads.length := (List.getElem?_eq_some_iff.1 h1).1
    have hi : (s.move i .finishing todo).threads[i]? = some ⟨.finishing, todo⟩ := by simp [SharedRec.move, hl]
    have ho : ∀ j, i ≠ j → ∀ x, s.threads[j]? = some x → ¬ Within x.pc := by
      intro j hij x hx
      refine X'.others hi trivial hij ?_
      simp only [SharedRec.move]
      rw [List.getElem?_set_ne hij]
      exact hx
    have hw : ∀ x ∈ s.threads, ¬ Within x.pc := by
      intro x hx
      obtain ⟨j, hj⟩ := List.getElem?_of_mem hx
      by_cases hij : i = j
      · subst hij
        rw [h1] at hj
        injection hj with hj
        subst hj
        exact id
      · exact ho j hij x hj
    have f1 : s.threads.flatMap inFinishing = [] := List.flatMap_eq_nil_iff.2 fun x hx => inFinishing_nil (hw x hx)
    have f2 : s.threads.flatMap inMarked = [] := List.flatMap_eq_nil_iff.2 fun x hx => inMarked_nil (hw x hx)
    have hn : h.any firstBegun = false := by
      cases hh : h.any firstBegun with
      | false => rfl
      | true => rw [E.finished.2 ⟨hh, f1⟩] at hfin; cases hfin
    have hc := E.count
    rw [f1, f2, hn] at hc
    simp only [List.length_nil, Nat.zero_add, Bool.false_eq_true, if_false, Nat.add_eq_zero_iff] at hc
    have p1 := flatMap_set inFinishing h1 ⟨.finishing, todo⟩
    have p2 := flatMap_set inMarked h1 ⟨.finishing, todo⟩
    have p3 := flatMap_set inSending h1 ⟨.finishing, todo⟩
    rw [f1] at p1
    rw [f2] at p2
    rw [List.length_eq_zero_iff.1 hc.1] at p3
    have p1 : (s.threads.set i ⟨.finishing, todo⟩).flatMap inFinishing = [()] := by simpa [inFinishing] using p1
    have p2 : (s.threads.set i ⟨.finishing, todo⟩).flatMap inMarked = [] := by simpa [inMarked] using p2
    have p3 : (s.threads.set i ⟨.finishing, todo⟩).flatMap inSending = [] := by simpa [inSending] using p3
    have hev : (h ++ [(i, RecAct.began .finish)]).flatMap eventBegun = h.flatMap eventBegun := by simp [eventBegun, eventAnnotations]
    have hany : (h ++ [(i, RecAct.began .finish)]).any firstBegun = true := by simp [firstBegun]
    have hfs : (h ++ [(i, RecAct.began .finish)]).filterMap finishSent = [] := by
      rw [filterMap_snoc, List.length_eq_zero_iff.1 hc.2]; simp [finishSent]
    have hbf : beforeFinish (h ++ [(i, RecAct.began .finish)]) = h.flatMap eventBegun := by
      rw [beforeFinish_snoc, beforeFinish_none hn]; simp [firstBegun]
    refine ⟨?_, ?_, ?_, ?_, ?_, ?_⟩
    · rw [hany, hfs]
      simp only [SharedRec.move, p1, p2, p3]
      rfl
    · simp only [SharedRec.move, p1, hfin]
      simp
    · intro _
      rw [hev, hbf]
    · intro b hb
      rw [hfs] at hb
      simp only [SharedRec.move, p3] at hb
      cases hb
    · intro x hx b hb
      simp only [SharedRec.move] at hx
      rcases List.mem_or_eq_of_mem_set hx with hx | rfl
      · exact absurd hb (not_appending (hw x hx) b)
      · cases hb
    · intro _
      rw [hev]
      exact E.idle fun x hx => not_appending (hw x hx)
  | @finishMark todo h1 =>
    have hl : i < s.threads.length := (List.getElem?_eq_some_iff.1 h1).1
    have ho : ∀ j, i ≠ j → ∀ x, s.threads[j]? = some x → ¬ Within x.pc := fun j hij x hx => X.others h1 trivial hij hx
    have hna : ∀ x ∈ s.threads, ∀ as, x.pc ≠ .appending as := by
      intro x hx as
      obtain ⟨j, hj⟩ := List.getElem?_of_mem hx
      by_cases hij : i = j
      · subst hij
        rw [h1] at hj
        injection hj with hj
        subst hj
        exact fun e => by cases e
      · exact not_appending (ho j hij x hj) as
    have p1 := flatMap_set inFinishing h1 ⟨.marked, todo⟩
    have p2 := flatMap_set inMarked h1 ⟨.marked, todo⟩
    have p3 := flatMap_set inSending h1 ⟨.marked, todo⟩
    have g1 : (s.threads.set i ⟨.marked, todo⟩).flatMap inFinishing = [] := by
      rw [List.flatMap_eq_nil_iff]
      intro x hx
      obtain ⟨j, hj⟩ := List.getElem?_of_mem hx
      by_cases hij : i = j
      · subst hij
        rw [List.getElem?_set_self hl] at hj
        injection hj with hj
        subst hj
        rfl
      · rw [List.getElem?_set_ne hij] at hj
        exact inFinishing_nil (ho j hij x hj)
    rw [g1] at p1
    have l1 := p1.length_eq
    have l2 := p2.length_eq
    have l3 := p3.length_eq
    have p3 : ((s.threads.set i ⟨.marked, todo⟩).flatMap inSending).Perm (s.threads.flatMap inSending) := by simpa [inSending] using p3
    have hfn : s.threads.flatMap inFinishing ≠ [] := by
      intro e
      rw [e] at l1
      simp [inFinishing] at l1
    have hhas : h.any firstBegun = true := by
      cases hh : h.any firstBegun with
      | true => rfl
      | false =>
        have hc := E.count
        rw [hh] at hc
        simp only [Bool.false_eq_true, if_false, Nat.add_eq_zero_iff] at hc
        exact absurd (List.length_eq_zero_iff.1 hc.1.1.1) hfn
    have hev : (h ++ [(i, RecAct.internal)]).flatMap eventBegun = h.flatMap eventBegun := by simp [eventBegun]
    have hany : (h ++ [(i, RecAct.internal)]).any firstBegun = h.any firstBegun := by simp [firstBegun]
    have hfs : (h ++ [(i, RecAct.internal)]).filterMap finishSent = h.filterMap finishSent := by rw [filterMap_snoc]; simp [finishSent]
    have hbf : beforeFinish (h ++ [(i, RecAct.internal)]) = beforeFinish h := by rw [beforeFinish_snoc]; simp [firstBegun, eventBegun]
    refine ⟨?_, ?_, ?_, ?_, ?_, ?_⟩
    · rw [hany, hfs, ← E.count]
      simp only [SharedRec.move, g1]
      simp only [List.length_append, inFinishing, inMarked, inSending, List.length_nil, List.length_cons] at l1 l2 l3 ⊢
      omega
    · rw [hany]
      simp [SharedRec.move, g1, hhas]
    · intro _
      rw [hev, hbf]
      exact E.early (.inl hfn)
    · intro b hb
      rw [hbf]
      refine E.sent b ?_
      rw [hfs] at hb
      simp only [SharedRec.move, List.mem_append] at hb ⊢
      rcases hb with hb | hb
      · exact .inl (p3.subset hb)
      · exact .inr hb
    · intro x hx b hb
      simp only [SharedRec.move] at hx
      rcases List.mem_or_eq_of_mem_set hx with hx | rfl
      · exact absurd hb (hna x hx b)
      · cases hb
    · intro _
      rw [hev]
      exact E.idle hna
  | @finishTake todo h1 =>
    have hl : i < s.threads.length := (List.getElem?_eq_some_iff.1 h1).1
    have ho : ∀ j, i ≠ j → ∀ x, s.threads[j]? = some x → ¬ Within x.pc := fun j hij x hx => X.others h1 trivial hij hx
    have hna : ∀ x ∈ s.threads, ∀ as, x.pc ≠ .appending as := by
      intro x hx as
      obtain ⟨j, hj⟩ := List.getElem?_of_mem hx
      by_cases hij : i = j
      · subst hij
        rw [h1] at hj
        injection hj with hj
        subst hj
        exact fun e => by cases e
      · exact not_appending (ho j hij x hj) as
    have hw : ∀ x ∈ s.threads.set i ⟨.sending true s.annotations, todo⟩, ¬ Within x.pc := by
      intro x hx
      obtain ⟨j, hj⟩ := List.getElem?_of_mem hx
      by_cases hij : i = j
      · subst hij
        rw [List.getElem?_set_self hl] at hj
        injection hj with hj
        subst hj
        exact id
      · rw [List.getElem?_set_ne hij] at hj
        exact ho j hij x hj
    have g1 : (s.threads.set i ⟨.sending true s.annotations, todo⟩).flatMap inFinishing = [] :=
      List.flatMap_eq_nil_iff.2 fun x hx => inFinishing_nil (hw x hx)
    have g2 : (s.threads.set i ⟨.sending true s.annotations, todo⟩).flatMap inMarked = [] :=
      List.flatMap_eq_nil_iff.2 fun x hx => inMarked_nil (hw x hx)
    have p1 := flatMap_set inFinishing h1 ⟨.sending true s.annotations, todo⟩
    have p2 := flatMap_set inMarked h1 ⟨.sending true s.annotations, todo⟩
    have p3 := flatMap_set inSending h1 ⟨.sending true s.annotations, todo⟩
    rw [g1] at p1
    rw [g2] at p2
    have f1 : s.threads.flatMap inFinishing = [] := by simpa [inFinishing] using p1.symm
    have f2 : (s.threads.flatMap inMarked).length = 1 := by simpa [inMarked] using p2.length_eq.symm
    have l3 := p3.length_eq
    have ha : s.annotations = beforeFinish h := by
      rw [E.idle hna]
      refine E.early (.inr ?_)
      intro e
      rw [e] at f2
      cases f2
    have hev : (h ++ [(i, RecAct.internal)]).flatMap eventBegun = h.flatMap eventBegun := by simp [eventBegun]
    have hany : (h ++ [(i, RecAct.internal)]).any firstBegun = h.any firstBegun := by simp [firstBegun]
    have hfs : (h ++ [(i, RecAct.internal)]).filterMap finishSent = h.filterMap finishSent := by rw [filterMap_snoc]; simp [finishSent]
    have hbf : beforeFinish (h ++ [(i, RecAct.internal)]) = beforeFinish h := by rw [beforeFinish_snoc]; simp [firstBegun, eventBegun]
    refine ⟨?_, ?_, ?_, ?_, ?_, ?_⟩
    · rw [hany, hfs, ← E.count, f1, f2]
      simp only [SharedRec.move, g1, g2]
      simp only [List.length_append, inSending, List.length_nil, List.length_cons] at l3 ⊢
      omega
    · rw [hany]
      have := E.finished
      rw [f1] at this
      simpa [SharedRec.move, g1] using this
    · simp only [SharedRec.move, g1, g2]
      intro hf
      simp at hf
    · intro b hb
      rw [hbf]
      rw [hfs] at hb
      simp only [SharedRec.move, List.mem_append] at hb
      rcases hb with hb | hb
      · have := p3.subset (List.mem_append_left _ hb)
        rcases List.mem_append.1 this with hb | hb
        · exact E.sent b (List.mem_append_left _ hb)
        · simp only [inSending, List.mem_singleton] at hb
          rw [hb, ha]
      · exact E.sent b (List.mem_append_right _ hb)
    · intro x hx b hb
      exact absurd hb (not_appending (hw x hx) b)
    · intro _
      rw [hev]
      exact E.idle hna

theorem new_exclusive (prog : List (List RecOp)) : Exclusive (SharedRec.new prog) := by
  intro i j a b ha _ hw
  have hm := List.mem_of_getElem? ha
  simp only [SharedRec.new, List.mem_map] at hm
  obtain ⟨ops, -, rfl⟩ := hm
  exact absurd hw id

theorem shared_excl {s0 : SharedRec} (e0 : s0 = SharedRec.new prog) (r : SharedRuns logger Exclusive s0 h s) : Excl h s ∧ Exclusive s := by
  induction r with
  | nil =>
    subst e0
    refine ⟨⟨?_, ?_, ?_, ?_, ?_, fun _ => rfl⟩, new_exclusive prog⟩
    · rw [new_flatMap _ (fun _ => rfl), new_flatMap _ (fun _ => rfl), new_flatMap _ (fun _ => rfl)]; rfl
    · simp [SharedRec.new]
    · rw [new_flatMap _ (fun _ => rfl), new_flatMap _ (fun _ => rfl)]
      intro hf
      simp at hf
    · rw [new_flatMap _ (fun _ => rfl)]
      intro as has
      cases has
    · intro th hth as hpc
      simp only [SharedRec.new, List.mem_map] at hth
      obtain ⟨ops, -, rfl⟩ := hth
      cases hpc
  | snoc r st x ih => exact ⟨ih.1.step st ih.2 x, x⟩

/-- Under exclusion, a call of `Finish` finds `finished` false only if none did before. -/
theorem shared_first {s0 : SharedRec} (e0 : s0 = SharedRec.new prog) (r : SharedRuns logger Exclusive s0 h s) :
    (h.filter firstBegun).length ≤ 1 := by
  induction r with
  | nil => simp
  | @snoc s1 s2 h1 i a r st x ih =>
    rw [List.filter_append, List.length_append]
    cases hb : firstBegun (i, a) with
    | false => simpa [hb] using ih
    | true =>
      have E := (shared_excl e0 r).1
      cases st <;> first | cases hb | skip
      rename_i todo h1' hfin
      have hl : i < s1.threads.length := (List.getElem?_eq_some_iff.1 h1').1
      cases hh : h1.any firstBegun with
      | false =>
        have : h1.filter firstBegun = [] := by
          rw [List.filter_eq_nil_iff]
          intro y hy
          cases hy' : firstBegun y with
          | false => simp
          | true => rw [List.any_eq_true.2 ⟨y, hy, hy'⟩] at hh; cases hh
        rw [this]; exact Nat.le_refl 1
      | true =>
        exfalso
        have hne : s1.threads.flatMap inFinishing ≠ [] := by
          intro e
          rw [E.finished.2 ⟨hh, e⟩] at hfin
          cases hfin
        apply hne
        rw [List.flatMap_eq_nil_iff]
        intro y hy
        obtain ⟨j, hj⟩ := List.getElem?_of_mem hy
        by_cases hij : i = j
        · subst hij
          rw [h1'] at hj
          injection hj with hj
          subst hj
          rfl
        · refine inFinishing_nil (x.others (i := i) (th := ⟨.finishing, todo⟩) ?_ trivial hij ?_)
          · simp [SharedRec.move, hl]
          · simp only [SharedRec.move]
            rw [List.getElem?_set_ne hij]
            exact hj

/-- The calls that use `annotations` and `finished`. -/
def usesEvents : RecOp → Bool
  | .event (.ok _) => true
  | .finish => true
  | _ => false

/-- Only goroutine `k` calls `Event` and `Finish`. -/
def OnlyBy (k : Nat) (s : SharedRec) : Prop :=
  ∀ j th, j ≠ k → s.threads[j]? = some th → ¬ Within th.pc ∧ ∀ op ∈ th.todo, usesEvents op = false

theorem OnlyBy.exclusive {s : SharedRec} (o : OnlyBy k s) : Exclusive s := by
  intro i j a b ha hb wa wb
  have hi : i = k := by
    by_contra hne
    exact (o i a hne ha).1 wa
  have hj : j = k := by
    by_contra hne
    exact (o j b hne hb).1 wb
  rw [hi, hj]

theorem OnlyBy.set {s s' : SharedRec} (o : OnlyBy k s) {i : Nat} {th th' : RecThread} (h1 : s.threads[i]? = some th)
    (h2 : s'.threads = s.threads.set i th')
    (h3 : i ≠ k → ¬ Within th.pc → (∀ op ∈ th.todo, usesEvents op = false) →
      ¬ Within th'.pc ∧ ∀ op ∈ th'.todo, usesEvents op = false) : OnlyBy k s' := by
  have hl : i < s.threads.length := (List.getElem?_eq_some_iff.1 h1).1
  intro j x hj hx
  rw [h2] at hx
  by_cases hij : i = j
  · subst hij
    rw [List.getElem?_set_self hl] at hx
    injection hx with hx
    subst hx
    exact h3 hj (o i th hj h1).1 (o i th hj h1).2
  · rw [List.getElem?_set_ne hij] at hx
    exact o j x hj hx

theorem OnlyBy.step {s s' : SharedRec} {i : Nat} {a : RecAct} (o : OnlyBy k s) (st : SharedStep logger s i a s') : OnlyBy k s' := by
  cases st with
  | eventRead h1 => exact o.set h1 rfl fun _ _ h => absurd (h _ List.mem_cons_self) (by simp [usesEvents])
  | eventWrite h1 => exact o.set h1 rfl fun _ w _ => absurd trivial w
  | eventBad h1 => exact o.set h1 rfl fun _ _ h => ⟨id, fun op hop => h op (List.mem_cons_of_mem _ hop)⟩
  | annotation h1 => exact o.set h1 rfl fun _ _ h => ⟨id, fun op hop => h op (List.mem_cons_of_mem _ hop)⟩
  | finishFirst h1 _ => exact o.set h1 rfl fun _ _ h => absurd (h _ List.mem_cons_self) (by simp [usesEvents])
  | finishAgain h1 _ => exact o.set h1 rfl fun _ _ h => absurd (h _ List.mem_cons_self) (by simp [usesEvents])
  | finishMark h1 => exact o.set h1 rfl fun _ w _ => absurd trivial w
  | finishTake h1 => exact o.set h1 rfl fun _ w _ => absurd trivial w
  | sendOk h1 => exact o.set h1 rfl fun _ _ h => ⟨id, h⟩
  | sendFail h1 => exact o.set h1 rfl fun _ _ h => ⟨id, h⟩
  | report h1 => exact o.set h1 rfl fun _ _ h => ⟨id, h⟩
  | @note m err todo h1 => exact o.set (th' := ⟨.idle, todo⟩) h1 (by split <;> rfl) fun _ _ h => ⟨id, h⟩
  | takeErrors h1 => exact o.set h1 rfl fun _ _ h => ⟨id, fun op hop => h op (List.mem_cons_of_mem _ hop)⟩

theorem onlyBy_runs {s0 : SharedRec} (o : OnlyBy k s0) (r : SharedRuns logger ok s0 h s) :
    SharedRuns logger Exclusive s0 h s ∧ OnlyBy k s := by
  induction r with
  | nil => exact ⟨.nil, o⟩
  | snoc r st _ ih => exact ⟨.snoc ih.1 st (ih.2.step st).exclusive, ih.2.step st⟩

/-- How many steps a goroutine can still make, at most. -/
def stepsLeft (th : RecThread) : Nat :=
  6 * th.todo.length + match th.pc with
    | .idle => 0
    | .noting _ _ => 1
    | .appending _ => 1
    | .reporting _ _ => 2
    | .sending _ _ => 3
    | .marked => 4
    | .finishing => 5

theorem sum_set {f : RecThread → Nat} {l : List RecThread} {i : Nat} {th th' : RecThread} (h : l[i]? = some th) (hf : f th' < f th) :
    ((l.set i th').map f).sum + 1 ≤ (l.map f).sum := by
  induction l generalizing i with
  | nil => cases h
  | cons a l ih =>
    cases i with
    | zero =>
      simp only [List.getElem?_cons_zero, Option.some.injEq] at h
      subst h
      simp only [List.set_cons_zero, List.map_cons, List.sum_cons]
      omega
    | succ i =>
      have := ih (i := i) h
      simp only [List.set_cons_succ, List.map_cons, List.sum_cons]
      omega

theorem stepsLeft_step {s s' : SharedRec} {i : Nat} {a : RecAct} (st : SharedStep logger s i a s') :
    (s'.threads.map stepsLeft).sum + 1 ≤ (s.threads.map stepsLeft).sum := by
  cases st with
  | @note m err todo h1 =>
    have := sum_set (f := stepsLeft) (th' := ⟨.idle, todo⟩) h1 (by simp only [stepsLeft]; omega)
    split <;> exact this
  | eventRead h1 => exact sum_set (f := stepsLeft) h1 (by simp only [stepsLeft, List.length_cons]; omega)
  | eventWrite h1 => exact sum_set (f := stepsLeft) h1 (by simp only [stepsLeft]; omega)
  | eventBad h1 => exact sum_set (f := stepsLeft) h1 (by simp only [stepsLeft, List.length_cons]; omega)
  | annotation h1 => exact sum_set (f := stepsLeft) h1 (by simp only [stepsLeft, List.length_cons]; omega)
  | finishFirst h1 _ => exact sum_set (f := stepsLeft) h1 (by simp only [stepsLeft, List.length_cons]; omega)
  | finishAgain h1 _ => exact sum_set (f := stepsLeft) h1 (by simp only [stepsLeft, List.length_cons]; omega)
  | finishMark h1 => exact sum_set (f := stepsLeft) h1 (by simp only [stepsLeft]; omega)
  | finishTake h1 => exact sum_set (f := stepsLeft) h1 (by simp only [stepsLeft]; omega)
  | sendOk h1 => exact sum_set (f := stepsLeft) h1 (by simp only [stepsLeft]; omega)
  | sendFail h1 => exact sum_set (f := stepsLeft) h1 (by simp only [stepsLeft]; omega)
  | report h1 => exact sum_set (f := stepsLeft) h1 (by simp only [stepsLeft]; omega)
  | takeErrors h1 => exact sum_set (f := stepsLeft) h1 (by simp only [stepsLeft, List.length_cons]; omega)

theorem stepsLeft_runs {s0 : SharedRec} (r : SharedRuns logger ok s0 h s) :
    (s.threads.map stepsLeft).sum + h.length ≤ (s0.threads.map stepsLeft).sum := by
  induction r with
  | nil => simp
  | snoc r st _ ih =>
    have := stepsLeft_step st
    simp only [List.length_append, List.length_cons, List.length_nil]
    omega

/-- A goroutine that has not returned from all its calls can go on, whatever the others do. -/
theorem shared_can_step {s : SharedRec} {i : Nat} {th : RecThread} (hi : s.threads[i]? = some th) (hn : ¬ (th.pc = .idle ∧ th.todo = [])) :
    ∃ a s', SharedStep logger s i a s' := by
  obtain ⟨pc, todo⟩ := th
  cases pc with
  | idle =>
    cases todo with
    | nil => exact absurd ⟨rfl, rfl⟩ hn
    | cons op todo =>
      cases op with
      | event r =>
        cases r with
        | ok as => exact ⟨_, _, .eventRead hi⟩
        | error e => exact ⟨_, _, .eventBad hi⟩
      | annotation as => exact ⟨_, _, .annotation hi⟩
      | finish =>
        cases hf : s.finished with
        | false => exact ⟨_, _, .finishFirst hi hf⟩
        | true => exact ⟨_, _, .finishAgain hi hf⟩
      | errors => exact ⟨_, _, .takeErrors hi⟩
  | appending as => exact ⟨_, _, .eventWrite hi⟩
  | finishing => exact ⟨_, _, .finishMark hi⟩
  | marked => exact ⟨_, _, .finishTake hi⟩
  | sending fin as => exact ⟨_, _, .sendOk hi⟩
  | reporting m err => exact ⟨_, _, .report (as := []) hi⟩
  | noting m err => exact ⟨_, _, .note hi⟩

theorem step_thread {s s' : SharedRec} {i : Nat} {a : RecAct} (st : SharedStep logger s i a s') :
    i < s.threads.length ∧ s'.threads.length = s.threads.length := by
  have key : ∀ {th : RecThread}, s.threads[i]? = some th → i < s.threads.length := fun h => (List.getElem?_eq_some_iff.1 h).1
  cases st with
  | note h1 => refine ⟨key h1, ?_⟩; split <;> simp [SharedRec.move]
  | eventRead h1 => exact ⟨key h1, by simp [SharedRec.move]⟩
  | eventWrite h1 => exact ⟨key h1, by simp [SharedRec.move]⟩
  | eventBad h1 => exact ⟨key h1, by simp [SharedRec.move]⟩
  | annotation h1 => exact ⟨key h1, by simp [SharedRec.move]⟩
  | finishFirst h1 _ => exact ⟨key h1, by simp [SharedRec.move]⟩
  | finishAgain h1 _ => exact ⟨key h1, by simp [SharedRec.move]⟩
  | finishMark h1 => exact ⟨key h1, by simp [SharedRec.move]⟩
  | finishTake h1 => exact ⟨key h1, by simp [SharedRec.move]⟩
  | sendOk h1 => exact ⟨key h1, by simp [SharedRec.move]⟩
  | sendFail h1 => exact ⟨key h1, by simp [SharedRec.move]⟩
  | report h1 => exact ⟨key h1, by simp [SharedRec.move]⟩
  | takeErrors h1 => exact ⟨key h1, by simp [SharedRec.move]⟩

theorem shared_act_thread {s0 : SharedRec} (e0 : s0 = SharedRec.new prog) (r : SharedRuns logger ok s0 h s) :
    s.threads.length = prog.length ∧ ∀ x ∈ h, x.1 < prog.length := by
  induction r with
  | nil => subst e0; exact ⟨by simp [SharedRec.new], by intro x hx; cases hx⟩
  | snoc r st _ ih =>
    obtain ⟨h1, h2⟩ := step_thread st
    refine ⟨by rw [h2, ih.1], ?_⟩
    intro x hx
    rcases List.mem_append.1 hx with hx | hx
    · exact ih.2 x hx
    · rw [List.mem_singleton.1 hx, ← ih.1]
      exact h1

theorem shared_split {s0 : SharedRec} {h1 h2 : List (Nat × RecAct)} {i : Nat} {a : RecAct}
    (r : SharedRuns logger ok s0 h s) (e : h = h1 ++ (i, a) :: h2) :
    ∃ s1 s2, SharedRuns logger ok s0 h1 s1 ∧ SharedStep logger s1 i a s2 := by
  induction r generalizing h2 with
  | nil => simp at e
  | @snoc s1 s2 g j b r st _ ih =>
    cases h2 using List.reverseRecOn with
    | nil =>
      obtain ⟨e1, e2⟩ := List.append_inj' e rfl
      simp only [List.cons.injEq, Prod.mk.injEq, and_true] at e2
      obtain ⟨rfl, rfl⟩ := e2
      subst e1
      exact ⟨_, _, r, st⟩
    | append_singleton h2 x =>
      have e' : g ++ [(j, b)] = (h1 ++ (i, a) :: h2) ++ [x] := by rw [e]; simp
      exact ih (List.append_inj' e' rfl).1

end Appdash
