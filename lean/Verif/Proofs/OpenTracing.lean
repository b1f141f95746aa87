import Verif.Spec.OpenTracing
import Verif.Proofs.Http

/-!
# Lemmas about recording OpenTracing spans
-/

namespace Appdash

open Spec

theorem lastOf_append (k : Bytes) (a b : List (Bytes × Bytes)) : lastOf k (a ++ b) = (lastOf k b).or (lastOf k a) := by
  induction a with
  | nil => simp [lastOf]
  | cons e a ih => simp only [List.cons_append, lastOf, ih, Option.or_assoc]

theorem foldl_set_get (f : List (Bytes × Bytes)) (m : AMap Bytes Bytes) (k : Bytes) :
    AMap.get (f.foldl (fun m e => AMap.set m e.1 e.2) m) k = (lastOf k f).or (AMap.get m k) := by
  induction f generalizing m with
  | nil => rfl
  | cons e f ih =>
    rw [List.foldl_cons, ih, lastOf, Option.or_assoc, AMap.get_set]
    split <;> rfl

theorem foldl_set_nodup (f : List (Bytes × Bytes)) (m : AMap Bytes Bytes) (h : m.keys.Nodup) :
    (AMap.keys (f.foldl (fun m e => AMap.set m e.1 e.2) m)).Nodup := by
  induction f generalizing m with
  | nil => exact h
  | cons e f ih => exact ih _ (AMap.nodup_keys_set _ _ _ h)

theorem fieldsMap_eq (fs : List (List (Bytes × Bytes))) (m : AMap Bytes Bytes) :
    fieldsMap fs m = fs.flatten.foldl (fun m e => AMap.set m e.1 e.2) m := by
  induction fs generalizing m with
  | nil => rfl
  | cons f fs ih => rw [fieldsMap, ih, List.flatten_cons, List.foldl_append]

theorem lastOf_isSome (k : Bytes) (f : List (Bytes × Bytes)) : (lastOf k f).isSome ↔ ∃ e ∈ f, e.1 = k := by
  induction f with
  | nil => simp [lastOf]
  | cons e f ih =>
    simp only [lastOf, Option.isSome_or, Bool.or_eq_true, ih, List.mem_cons, exists_eq_or_imp]
    by_cases h : e.1 = k
    · simp [h]
    · simp [h]

/-- A map with one key. -/
theorem one_key {m : AMap Bytes Bytes} (h : m.keys.Nodup) (k : Bytes) :
    (m.length = 1 ∧ (AMap.get m k).isSome) ↔ ((AMap.get m k).isSome ∧ ∀ k', (AMap.get m k').isSome → k' = k) := by
  constructor
  · rintro ⟨h1, h2⟩
    refine ⟨h2, fun k' h' => ?_⟩
    match m, h1 with
    | [e], _ =>
      simp only [AMap.get] at h2 h'
      by_cases a : e.1 = k
      · by_cases b : e.1 = k'
        · rw [← a, b]
        · simp [b] at h'
      · simp [a] at h2
  · rintro ⟨h2, hu⟩
    refine ⟨?_, h2⟩
    match m with
    | [] => simp [AMap.get] at h2
    | [e] => rfl
    | e :: f :: m =>
      exfalso
      have e1 : e.1 = k := hu _ (by simp [AMap.get])
      have f1 : f.1 = k := hu _ (by
        simp only [AMap.get]
        split <;> simp)
      simp only [AMap.keys, List.map_cons, List.nodup_cons, List.mem_cons, not_or] at h
      exact h.1.1 (e1.trans f1.symm)

theorem materialize_logText (env : OTEnv) (fs : List (List (Bytes × Bytes))) :
    LogText env.json fs.flatten (materialize env fs) := by
  unfold materialize
  rw [fieldsMap_eq]
  generalize fs.flatten = f
  have hg := fun k => foldl_set_get f [] k
  have hn := foldl_set_nodup f [] (by simp [AMap.keys])
  generalize f.foldl (fun m e => AMap.set m e.1 e.2) [] = m at hg hn
  have hg' : ∀ k, AMap.get m k = lastOf k f := fun k => by rw [hg]; simp [AMap.get]
  have h1 := one_key hn b!"event"
  have hiff : (f ≠ [] ∧ ∀ e ∈ f, e.1 = b!"event") ↔ (m.length = 1 ∧ (AMap.get m b!"event").isSome) := by
    rw [h1]
    constructor
    · rintro ⟨a, b⟩
      refine ⟨?_, fun k' hk => ?_⟩
      · obtain ⟨e, he⟩ := List.exists_mem_of_ne_nil _ a
        rw [hg', lastOf_isSome]
        exact ⟨e, he, b e he⟩
      · rw [hg', lastOf_isSome] at hk
        obtain ⟨e, he, rfl⟩ := hk
        exact b e he
    · rintro ⟨a, b⟩
      rw [hg', lastOf_isSome] at a
      obtain ⟨e, he, -⟩ := a
      refine ⟨fun h => by simp [h] at he, fun e he => b _ ?_⟩
      rw [hg', lastOf_isSome]
      exact ⟨e, he, rfl⟩
  simp only
  split
  · rename_i event hl he
    have := hiff.2 ⟨hl, by rw [he]; rfl⟩
    exact Or.inl ⟨this.1, this.2, by rw [← hg', he]⟩
  · rename_i hne
    refine Or.inr ⟨fun h => ?_, m, hn, hg', rfl⟩
    obtain ⟨a, b⟩ := hiff.1 h
    obtain ⟨v, hv⟩ := Option.isSome_iff_exists.1 b
    exact hne v a hv

theorem collect_name {name : Bytes} {act : OTAct} (h : CollectEvent spanNameEvent (nameValue name) act) :
    ∃ as, act = .collect as ∧ SaysName name as := by
  obtain ⟨r, hm, h⟩ := h
  obtain ⟨kvs, hp, rfl⟩ := hm
  have : flatten spanNameEvent.type [] (nameValue name) = [(b!"Name", name)] := rfl
  rw [this, List.perm_singleton] at hp
  subst hp
  exact ⟨_, h, rfl⟩

theorem perm_map_annotationOf {kvs l : List KV} (h : kvs.Perm l) :
    (kvs.map annotationOf).Perm (l.map annotationOf) := h.map _

/-- A rearrangement of an image is the image of a rearrangement. -/
theorem perm_of_map {α β : Type} (f : α → β) {l l' : List β} (h : l.Perm l') {m : List α} (e : l' = m.map f) :
    ∃ k : List α, k.Perm m ∧ l = k.map f := by
  induction h generalizing m with
  | nil => exact ⟨m, .refl _, e⟩
  | cons x _ ih =>
    cases m with
    | nil => cases e
    | cons a m =>
      simp only [List.map_cons, List.cons.injEq] at e
      obtain ⟨k, h1, h2⟩ := ih e.2
      exact ⟨a :: k, h1.cons a, by rw [h2, e.1]; rfl⟩
  | swap x y l =>
    match m, e with
    | a :: b :: m, e =>
      simp only [List.map_cons, List.cons.injEq] at e
      obtain ⟨rfl, rfl, rfl⟩ := e
      exact ⟨b :: a :: m, .swap a b m, rfl⟩
  | trans _ _ ih1 ih2 =>
    obtain ⟨k, h1, h2⟩ := ih2 e
    obtain ⟨k', h3, h4⟩ := ih1 h2
    exact ⟨k', h3.trans h1, h4⟩

theorem marshals_log {msg : Bytes} {t : GoTime} {as : List Annotation}
    (h : Marshals logEvent (logValue msg t) (.ok as)) : SaysLog msg t as := by
  obtain ⟨kvs, hp, h⟩ := h
  cases h
  exact ⟨_, perm_map_annotationOf hp, rfl⟩

theorem collect_log {msg : Bytes} {t : GoTime} {act : OTAct} (h : CollectEvent logEvent (logValue msg t) act) :
    ∃ as, act = .collect as ∧ SaysLog msg t as := by
  obtain ⟨r, hm, h⟩ := h
  obtain ⟨kvs, hp, rfl⟩ := hm
  exact ⟨_, h, _, perm_map_annotationOf hp, rfl⟩

theorem collect_times {s e : GoTime} {act : OTAct} (h : CollectEvent timespan (timespanValue s e) act) :
    ∃ as, act = .collect as ∧ SaysTimes s e as := by
  obtain ⟨r, hm, h⟩ := h
  obtain ⟨kvs, hp, rfl⟩ := hm
  exact ⟨_, h, _, perm_map_annotationOf hp, rfl⟩

/-- What `RecordSpan` does, in terms of the specification. -/
theorem recordSpan_acts {env : OTEnv} {sp : RawSpan} {acts : List OTAct} (h : RecordSpan env sp acts) :
    ∃ calls, acts = calls.map OTAct.collect ∧ (sp.sampled = false → calls = []) ∧
      (sp.sampled = true → RecordsAll env sp calls) := by
  unfold RecordSpan at h
  split at h
  · rename_i hs
    exact ⟨[], by simpa using h, fun _ => rfl, fun h' => by simp [hs] at h'⟩
  · rename_i hs
    obtain ⟨name, logs, tags, bag, times, hn, hl, ht, hb, htm, rfl⟩ := h
    obtain ⟨nameAs, rfl, hn'⟩ := collect_name hn
    obtain ⟨timesAs, rfl, htm'⟩ := collect_times htm
    have hl' : ∃ logsAs : List (List Annotation), logs = logsAs.map OTAct.collect ∧
        List.Forall₂ (fun (l : OTLog) as => ∃ text, LogText env.json l.fields.flatten text ∧ SaysLog text l.time as)
          sp.logs logsAs := by
      generalize sp.logs = ls at hl
      clear hn ht hb htm hs hn' htm'
      induction hl with
      | nil => exact ⟨[], rfl, .nil⟩
      | cons h1 _ ih =>
        obtain ⟨as, rfl, h1'⟩ := collect_log h1
        obtain ⟨la, rfl, ih⟩ := ih
        exact ⟨as :: la, rfl, .cons ⟨_, materialize_logText env _, h1'⟩ ih⟩
    obtain ⟨logsAs, rfl, hl'⟩ := hl'
    refine ⟨[nameAs] ++ logsAs ++ tags.map (fun e => [⟨e.1, some e.2⟩]) ++ bag.map (fun e => [⟨e.1, some e.2⟩]) ++
        [timesAs], ?_, fun h => absurd h hs,
      fun _ => ⟨nameAs, timesAs, logsAs, _, _, rfl, hn', hl', ht.map _, hb.map _, htm'⟩⟩
    simp only [List.map_append, List.map_map, List.map_cons, List.map_nil]
    rfl

/-! ## Reports -/

theorem Spec.ReportsRight.snoc_ok {cs : List OTCall} (h : ReportsRight cs) {c : OTCall} (h1 : c.report = none)
    (h2 : c.answer = none) : ReportsRight (cs ++ [c]) := by
  induction h with
  | nil => exact .ok c [] h1 h2 .nil
  | ok d cs a b _ ih => exact .ok d _ a b ih
  | failed d r cs e t a b p q _ ih => exact .failed d r _ e t a b p q ih

theorem Spec.ReportsRight.snoc_failed {cs : List OTCall} (h : ReportsRight cs) {c r : OTCall} {e : Bytes} {t : GoTime}
    (h1 : c.report = none) (h2 : c.answer = some e) (h3 : r.report = some e) (h4 : SaysLog e t r.as) :
    ReportsRight (cs ++ [c, r]) := by
  induction h with
  | nil => exact .failed c r [] e t h1 h2 h3 h4 .nil
  | ok d cs a b _ ih => exact .ok d _ a b ih
  | failed d r cs e t a b p q _ ih => exact .failed d r _ e t a b p q ih

/-- The calls that are not reports. -/
def mains (cs : List OTCall) : List (List Annotation) := (cs.filter fun c => c.report = none).map OTCall.as

/-- Where a thread is: what it will do, in relation to the calls it has made. -/
inductive Phase : List OTAct → List OTCall → List (List Annotation) → Prop where
  | between (rest : List (List Annotation)) (cs : List OTCall) (h : ReportsRight cs) :
    Phase (rest.map OTAct.collect) cs rest
  | reporting (rest : List (List Annotation)) (cs : List OTCall) (c : OTCall) (e : Bytes) (h : ReportsRight cs)
    (h1 : c.report = none) (h2 : c.answer = some e) : Phase (.report e :: rest.map OTAct.collect) (cs ++ [c]) rest
  | logging (rest : List (List Annotation)) (cs : List OTCall) (e : Bytes) (h : ReportsRight cs) :
    Phase (.log e :: rest.map OTAct.collect) cs rest

/-- The state of a thread. -/
structure ThreadOK (env : OTEnv) (sp : RawSpan) (acts : List OTAct) (cs : List OTCall) : Prop where
  ids : ∀ c ∈ cs, c.span = sp.id
  all : ∃ calls rest, Phase acts cs rest ∧ mains cs ++ rest = calls ∧ (sp.sampled = false → calls = []) ∧
    (sp.sampled = true → RecordsAll env sp calls)

theorem ThreadOK.start {env : OTEnv} {sp : RawSpan} {acts : List OTAct} (h : RecordSpan env sp acts) :
    ThreadOK env sp acts [] := by
  obtain ⟨calls, rfl, h1, h2⟩ := recordSpan_acts h
  exact ⟨by simp, calls, calls, .between _ _ .nil, rfl, h1, h2⟩

theorem ThreadOK.collect {env : OTEnv} {sp : RawSpan} {as : List Annotation} {acts : List OTAct} {cs : List OTCall}
    (h : ThreadOK env sp (.collect as :: acts) cs) (i : Nat) (answer : Option Bytes) :
    ThreadOK env sp (afterCollect answer acts) (cs ++ [⟨i, sp.id, as, none, answer⟩]) := by
  obtain ⟨h1, calls, rest, hp, e, h2⟩ := h
  refine ⟨?_, calls, ?_⟩
  · intro c hc
    rcases List.mem_append.1 hc with hc | hc
    · exact h1 c hc
    · simp only [List.mem_singleton] at hc; subst hc; rfl
  · generalize ha : OTAct.collect as :: acts = all at hp
    cases hp with
    | reporting => cases ha
    | logging => cases ha
    | between rest cs hr =>
      cases rest with
      | nil => cases ha
      | cons a rest =>
        simp only [List.map_cons, List.cons.injEq, OTAct.collect.injEq] at ha
        obtain ⟨rfl, rfl⟩ := ha
        refine ⟨rest, ?_, ?_, h2⟩
        · cases answer with
          | none => exact .between _ _ (hr.snoc_ok rfl rfl)
          | some e => exact .reporting _ _ _ e hr rfl rfl
        · rw [← e]; simp [mains]

theorem ThreadOK.report {env : OTEnv} {sp : RawSpan} {e : Bytes} {acts : List OTAct} {cs : List OTCall}
    (h : ThreadOK env sp (.report e :: acts) cs) (i : Nat) (answer : Option Bytes) {now : GoTime} {as : List Annotation}
    (hm : Marshals logEvent (logValue e now) (.ok as)) :
    ThreadOK env sp (afterReport answer acts) (cs ++ [⟨i, sp.id, as, some e, answer⟩]) := by
  obtain ⟨h1, calls, rest, hp, eq, h2⟩ := h
  refine ⟨?_, calls, ?_⟩
  · intro c hc
    rcases List.mem_append.1 hc with hc | hc
    · exact h1 c hc
    · simp only [List.mem_singleton] at hc; subst hc; rfl
  · generalize ha : OTAct.report e :: acts = all at hp
    cases hp with
    | between rest cs hr => cases rest <;> cases ha
    | logging => cases ha
    | reporting rest cs c e' hr c1 c2 =>
      simp only [List.cons.injEq, OTAct.report.injEq] at ha
      obtain ⟨rfl, rfl⟩ := ha
      have hr' : ReportsRight (cs ++ [c] ++ [⟨i, sp.id, as, some e, answer⟩]) := by
        rw [List.append_assoc]
        exact hr.snoc_failed c1 c2 rfl (marshals_log hm)
      refine ⟨rest, ?_, ?_, h2⟩
      · cases answer with
        | none => exact .between _ _ hr'
        | some e => exact .logging _ _ _ hr'
      · rw [← eq]; simp [mains, List.filter_append, List.filter_cons]

theorem ThreadOK.log {env : OTEnv} {sp : RawSpan} {e : Bytes} {acts : List OTAct} {cs : List OTCall}
    (h : ThreadOK env sp (.log e :: acts) cs) : ThreadOK env sp acts cs := by
  obtain ⟨h1, calls, rest, hp, eq, h2⟩ := h
  refine ⟨h1, calls, ?_⟩
  generalize ha : OTAct.log e :: acts = all at hp
  cases hp with
  | between rest cs hr => cases rest <;> cases ha
  | reporting => cases ha
  | logging rest cs e' hr =>
    simp only [List.cons.injEq] at ha
    obtain ⟨-, rfl⟩ := ha
    exact ⟨rest, .between _ _ hr, eq, h2⟩

/-- The whole state: threads are as they should be, and calls belong to threads. -/
structure OTInv (env : OTEnv) (s : OTState) : Prop where
  threads : ∀ (i : Nat) (t : RawSpan × List OTAct), s.threads[i]? = some t → ThreadOK env t.1 t.2 (callsOf s i)
  owned : ∀ c ∈ s.calls, c.thread < s.threads.length

theorem callsOf_snoc (s : OTState) (ts : List (RawSpan × List OTAct)) (c : OTCall) (i : Nat) :
    callsOf { s with calls := s.calls ++ [c], threads := ts } i = callsOf s i ++ if c.thread = i then [c] else [] := by
  simp only [callsOf, List.filter_append]
  congr 1
  by_cases h : c.thread = i <;> simp [h]

theorem lt_of_getElem? {α : Type} {l : List α} {i : Nat} {a : α} (h : l[i]? = some a) : i < l.length :=
  (List.getElem?_eq_some_iff.1 h).1

theorem OTInv.step {env : OTEnv} {s s' : OTState} (h : OTInv env s) (hs : OTStep env s s') : OTInv env s' := by
  cases hs with
  | start sp acts hr =>
    refine ⟨fun i t ht => ?_, fun c hc => ?_⟩
    · by_cases hi : i < s.threads.length
      · rw [List.getElem?_append_left hi] at ht
        exact h.threads i t ht
      · simp only at ht
        rw [List.getElem?_append_right (by omega)] at ht
        have : i - s.threads.length = 0 := by
          have := lt_of_getElem? ht
          simp at this; omega
        rw [this] at ht
        simp only [List.getElem?_cons_zero, Option.some.injEq] at ht
        subst ht
        have hnil : callsOf s i = [] := by
          simp only [callsOf, List.filter_eq_nil_iff, decide_eq_true_eq]
          intro c hc e
          have := h.owned c hc
          omega
        change ThreadOK env sp acts (callsOf s i)
        rw [hnil]
        exact ThreadOK.start hr
    · simp only [List.length_append]
      exact Nat.lt_add_right _ (h.owned c hc)
  | collect j sp as acts answer hj =>
    refine ⟨fun i t ht => ?_, fun c hc => ?_⟩
    · rw [callsOf_snoc]
      simp only [List.getElem?_set] at ht
      by_cases e : j = i
      · subst e
        rw [if_pos rfl, if_pos (lt_of_getElem? hj)] at ht
        cases ht
        rw [if_pos rfl]
        exact (h.threads j _ hj).collect j answer
      · rw [if_neg e] at ht
        rw [if_neg e, List.append_nil]
        exact h.threads i t ht
    · simp only [List.length_set]
      rcases List.mem_append.1 hc with hc | hc
      · exact h.owned c hc
      · simp only [List.mem_singleton] at hc; subst hc; exact lt_of_getElem? hj
  | report j sp e acts now as answer hj hm =>
    refine ⟨fun i t ht => ?_, fun c hc => ?_⟩
    · rw [callsOf_snoc]
      simp only [List.getElem?_set] at ht
      by_cases e' : j = i
      · subst e'
        rw [if_pos rfl, if_pos (lt_of_getElem? hj)] at ht
        cases ht
        rw [if_pos rfl]
        exact (h.threads j _ hj).report j answer hm
      · rw [if_neg e'] at ht
        rw [if_neg e', List.append_nil]
        exact h.threads i t ht
    · simp only [List.length_set]
      rcases List.mem_append.1 hc with hc | hc
      · exact h.owned c hc
      · simp only [List.mem_singleton] at hc; subst hc; exact lt_of_getElem? hj
  | log j sp e acts hj =>
    have hw : (s.writeLog e).calls = s.calls := by
      unfold OTState.writeLog
      split
      · rfl
      · split <;> rfl
    refine ⟨fun i t ht => ?_, fun c hc => ?_⟩
    · have hc : callsOf { s.writeLog e with threads := s.threads.set j (sp, acts) } i = callsOf s i := by
        simp only [callsOf, hw]
      rw [hc]
      simp only [List.getElem?_set] at ht
      by_cases e' : j = i
      · subst e'
        rw [if_pos rfl, if_pos (lt_of_getElem? hj)] at ht
        cases ht
        exact (h.threads j _ hj).log
      · rw [if_neg e'] at ht
        exact h.threads i t ht
    · simp only [List.length_set]
      simp only [hw] at hc
      exact h.owned c hc

theorem OTReach.inv {env : OTEnv} {verbose : Bool} {s : OTState} (h : OTReach env verbose s) : OTInv env s := by
  induction h with
  | new => exact ⟨fun i t ht => by simp [OTState.new] at ht, fun c hc => by simp [OTState.new] at hc⟩
  | step _ hs ih => exact ih.step hs

/-! ## The logger -/

/-- The log lines that an action will lead to without further calls. -/
def logAct : OTAct → Option Bytes
  | .log e => some e
  | _ => none

/-- The errors that threads are about to write to the logger. -/
def pendingLogs (ts : List (RawSpan × List OTAct)) : List Bytes := ts.flatMap fun t => t.2.filterMap logAct

theorem flatMap_set {α β : Type} (f : α → List β) {l : List α} {i : Nat} {x : α} (h : l[i]? = some x) (y : α) :
    ((l.set i y).flatMap f ++ f x).Perm (l.flatMap f ++ f y) := by
  induction l generalizing i with
  | nil => simp at h
  | cons a l ih =>
    cases i with
    | zero =>
      simp only [List.getElem?_cons_zero, Option.some.injEq] at h
      subst h
      simp only [List.set_cons_zero, List.flatMap_cons]
      refine List.Perm.trans ?_ (List.perm_append_comm.append_right _ : (l.flatMap f ++ f a ++ f y).Perm _)
      rw [List.append_assoc, List.append_assoc]
      exact List.perm_append_comm.trans (by rw [List.append_assoc])
    | succ i =>
      simp only [List.getElem?_cons_succ] at h
      simp only [List.set_cons_succ, List.flatMap_cons, List.append_assoc]
      exact (ih h).append_left _

theorem failedReports_snoc (s : OTState) (ts : List (RawSpan × List OTAct)) (c : OTCall) :
    failedReports { s with calls := s.calls ++ [c], threads := ts } =
      failedReports s ++ (if c.report = none then none else c.answer).toList := by
  simp only [failedReports, List.filterMap_append, List.append_cancel_left_eq]
  by_cases h : c.report = none
  · simp [h]
  · cases ha : c.answer <;> simp [h, ha]

/-- The state of the logger. -/
structure LogInv (s : OTState) : Prop where
  all : s.verbose = true → (s.logged ++ pendingLogs s.threads).Perm (failedReports s)
  once : s.verbose = false → s.logged.length = (if s.once then 1 else 0)
  any : s.verbose = false → (s.once = true ∨ pendingLogs s.threads ≠ [] ↔ failedReports s ≠ [])
  mem : ∀ e ∈ s.logged ++ pendingLogs s.threads, e ∈ failedReports s

theorem recordSpan_noLogs {env : OTEnv} {sp : RawSpan} {acts : List OTAct} (h : RecordSpan env sp acts) :
    acts.filterMap logAct = [] := by
  obtain ⟨calls, rfl, -⟩ := recordSpan_acts h
  induction calls with
  | nil => rfl
  | cons c calls ih => simp [logAct]

theorem pending_set_same {ts : List (RawSpan × List OTAct)} {i : Nat} {x : RawSpan × List OTAct} (h : ts[i]? = some x)
    (y : RawSpan × List OTAct) (hxy : y.2.filterMap logAct = x.2.filterMap logAct) :
    (pendingLogs (ts.set i y)).Perm (pendingLogs ts) := by
  have := flatMap_set (fun t : RawSpan × List OTAct => t.2.filterMap logAct) h y
  simp only [hxy] at this
  exact (List.perm_append_right_iff _).1 this

theorem LogInv.of_perm {s : OTState} {ts : List (RawSpan × List OTAct)} {cs : List OTCall} (h : LogInv s)
    (hp : (pendingLogs ts).Perm (pendingLogs s.threads))
    (hf : failedReports { s with calls := cs, threads := ts } = failedReports s) :
    LogInv { s with calls := cs, threads := ts } := by
  have hne : pendingLogs ts ≠ [] ↔ pendingLogs s.threads ≠ [] := by
    constructor <;> intro a b <;> rw [b] at hp
    · exact a (List.perm_nil.1 hp)
    · exact a (List.nil_perm.1 hp)
  refine ⟨fun v => ?_, h.once, fun v => ?_, fun e he => ?_⟩
  · rw [hf]; exact (hp.append_left _).trans (h.all v)
  · rw [hf]; simp only [hne]; exact h.any v
  · rw [hf]
    apply h.mem
    rcases List.mem_append.1 he with he | he
    · exact List.mem_append_left _ he
    · exact List.mem_append_right _ (hp.mem_iff.1 he)

theorem LogInv.step {env : OTEnv} {s s' : OTState} (h : LogInv s) (hs : OTStep env s s') : LogInv s' := by
  cases hs with
  | start sp acts hr =>
    refine LogInv.of_perm (cs := s.calls) h ?_ rfl
    simp [pendingLogs, recordSpan_noLogs hr]
  | collect j sp as acts answer hj =>
    refine LogInv.of_perm h (pending_set_same hj _ ?_) ?_
    · cases answer <;> rfl
    · rw [failedReports_snoc]; simp
  | report j sp e acts now as answer hj hm =>
    cases answer with
    | none =>
      refine LogInv.of_perm h (pending_set_same hj _ ?_) ?_
      · rfl
      · rw [failedReports_snoc]; simp
    | some e' =>
      have hp : (pendingLogs (s.threads.set j (sp, afterReport (some e') acts))).Perm (pendingLogs s.threads ++ [e']) := by
        have := flatMap_set (fun t : RawSpan × List OTAct => t.2.filterMap logAct) hj (sp, afterReport (some e') acts)
        have e1 : (OTAct.report e :: acts).filterMap logAct = acts.filterMap logAct := rfl
        have e2 : (afterReport (some e') acts).filterMap logAct = [e'] ++ acts.filterMap logAct := rfl
        simp only [e1, e2] at this
        rw [← List.append_assoc] at this
        exact (List.perm_append_right_iff _).1 this
      have hf := failedReports_snoc s (s.threads.set j (sp, afterReport (some e') acts)) ⟨j, sp.id, as, some e, some e'⟩
      simp only [reduceCtorEq, if_false, Option.toList_some] at hf
      refine ⟨fun v => ?_, h.once, fun v => ?_, fun x hx => ?_⟩
      · rw [hf]
        refine (hp.append_left _).trans ?_
        rw [← List.append_assoc]
        exact (h.all v).append_right _
      · rw [hf]
        have : pendingLogs (s.threads.set j (sp, afterReport (some e') acts)) ≠ [] := by
          intro e; rw [e] at hp; simpa using List.nil_perm.1 hp
        simp [this]
      · rw [hf]
        rcases List.mem_append.1 hx with hx | hx
        · exact List.mem_append_left _ (h.mem _ (List.mem_append_left _ hx))
        · rcases List.mem_append.1 (hp.mem_iff.1 hx) with hx | hx
          · exact List.mem_append_left _ (h.mem _ (List.mem_append_right _ hx))
          · exact List.mem_append_right _ hx
  | log j sp e acts hj =>
    have hp : (pendingLogs s.threads).Perm ([e] ++ pendingLogs (s.threads.set j (sp, acts))) := by
      have := flatMap_set (fun t : RawSpan × List OTAct => t.2.filterMap logAct) hj (sp, acts)
      have e1 : (OTAct.log e :: acts).filterMap logAct = [e] ++ acts.filterMap logAct := rfl
      simp only [e1] at this
      rw [← List.append_assoc] at this
      exact (((List.perm_append_right_iff _).1 this).symm).trans List.perm_append_comm
    have hne : pendingLogs s.threads ≠ [] := by
      intro e; rw [e] at hp; simpa using List.nil_perm.1 hp
    have hf : failedReports s ≠ [] := by
      intro e0
      have := h.mem e (List.mem_append_right _ (hp.mem_iff.2 (by simp)))
      simp [e0] at this
    have hmem : ∀ x ∈ s.logged ++ [e] ++ pendingLogs (s.threads.set j (sp, acts)), x ∈ failedReports s := by
      intro x hx
      apply h.mem
      rw [List.append_assoc] at hx
      exact (hp.append_left s.logged).mem_iff.2 hx
    by_cases hv : s.verbose = true
    · have hw : s.writeLog e = { s with logged := s.logged ++ [e] } := by simp [OTState.writeLog, hv]
      rw [hw]
      refine ⟨fun _ => ?_, fun v => by simp [hv] at v, fun v => by simp [hv] at v, hmem⟩
      have := (hp.append_left s.logged).symm.trans (h.all hv)
      simpa [failedReports] using this
    · have hv' : s.verbose = false := by simpa using hv
      by_cases ho : s.once = true
      · have hw : s.writeLog e = s := by simp [OTState.writeLog, hv, ho]
        rw [hw]
        refine ⟨fun v => absurd v hv, h.once, fun _ => ?_, ?_⟩
        · exact ⟨fun _ => hf, fun _ => Or.inl ho⟩
        · intro x hx
          apply hmem
          rcases List.mem_append.1 hx with hx | hx
          · exact List.mem_append_left _ (List.mem_append_left _ hx)
          · exact List.mem_append_right _ hx
      · have hw : s.writeLog e = { s with once := true, logged := s.logged ++ [e] } := by simp [OTState.writeLog, hv, ho]
        rw [hw]
        have h0 := h.once hv'
        simp only [ho] at h0
        refine ⟨fun v => absurd v hv, fun _ => ?_, fun _ => ?_, hmem⟩
        · simp only [List.length_append, List.length_singleton, if_true]
          simp at h0; simp [h0]
        · exact ⟨fun _ => hf, fun _ => Or.inl rfl⟩

theorem OTReach.logInv {env : OTEnv} {verbose : Bool} {s : OTState} (h : OTReach env verbose s) :
    LogInv s ∧ s.verbose = verbose := by
  induction h with
  | new =>
    refine ⟨⟨fun _ => List.Perm.refl _, fun _ => rfl, fun _ => ?_, fun e he => ?_⟩, rfl⟩
    · simp [OTState.new, pendingLogs, failedReports]
    · simp [OTState.new, pendingLogs] at he
  | step _ hs ih =>
    refine ⟨ih.1.step hs, ?_⟩
    rw [← ih.2]
    cases hs <;> try rfl
    simp only [OTState.writeLog]
    split
    · rfl
    · split <;> rfl

theorem pending_done {ts : List (RawSpan × List OTAct)} (h : ∀ t ∈ ts, t.2 = []) : pendingLogs ts = [] := by
  simp only [pendingLogs, List.flatMap_eq_nil_iff]
  intro t ht
  simp [h t ht]

end Appdash
