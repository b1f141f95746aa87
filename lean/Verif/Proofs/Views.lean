import Verif.Spec.Views

/-!
# Lemmas about the profile, aggregate and timeline views
-/

namespace Appdash

theorem ownTime_spec (millis : GoTime → GoTime → Int) (ts : List (Bytes × GoTime × GoTime)) (x : Int) (hx : 0 ≤ x) :
    x ≤ ownTime millis x ts ∧ (∀ p ∈ ts, millis p.2.1 p.2.2 ≤ ownTime millis x ts) ∧
      (ownTime millis x ts = x ∨ ∃ p ∈ ts, ownTime millis x ts = millis p.2.1 p.2.2) := by
  induction ts generalizing x with
  | nil => exact ⟨Int.le_refl _, by simp, .inl rfl⟩
  | cons p ts ih =>
    obtain ⟨n, s, e⟩ := p
    simp only [ownTime]
    have hx' : x ≤ (if millis s e > x then millis s e else x) := by split <;> omega
    have hm' : millis s e ≤ (if millis s e > x then millis s e else x) := by split <;> omega
    obtain ⟨h1, h2, h3⟩ := ih (if millis s e > x then millis s e else x) (by omega)
    refine ⟨Int.le_trans hx' h1, ?_, ?_⟩
    · intro q hq
      rcases List.mem_cons.1 hq with rfl | hq
      · exact Int.le_trans hm' h1
      · exact h2 q hq
    · rcases h3 with h3 | ⟨q, hq, h3⟩
      · by_cases hg : millis s e > x
        · right
          exact ⟨_, List.mem_cons_self .., by rw [h3, if_pos hg]⟩
        · left; rw [h3, if_neg hg]
      · right; exact ⟨q, List.mem_cons_of_mem _ hq, h3⟩

theorem ownTime_isOwn (millis : GoTime → GoTime → Int) (ts : List (Bytes × GoTime × GoTime)) :
    IsOwnTime millis ts (ownTime millis 0 ts) := by
  obtain ⟨h1, h2, h3⟩ := ownTime_spec millis ts 0 (Int.le_refl _)
  exact ⟨h1, h2, h3⟩

/-- The own time of a span as the code computes it. -/
def codeOwn (env : ViewEnv) (s : Span) : Int :=
  match spanTimes env.reg s.annotations with
  | some (.ok ts) => ownTime env.millis 0 ts
  | _ => 0

/-- Own times are unique. -/
theorem IsOwnTime.unique {millis : GoTime → GoTime → Int} {ts : List (Bytes × GoTime × GoTime)} {x y : Int}
    (hx : IsOwnTime millis ts x) (hy : IsOwnTime millis ts y) : x = y := by
  have key : ∀ {x y : Int}, IsOwnTime millis ts x → IsOwnTime millis ts y → x ≤ y := by
    intro x y hx hy
    rcases hx.attained with h | ⟨p, hp, h⟩
    · rw [h]; exact hy.nonneg
    · rw [h]; exact hy.ge p hp
  have := key hx hy
  have := key hy hx
  omega

/-- `own` is what the code computes. -/
theorem OwnTimes.eq {env : ViewEnv} {own : Span → Int} {spans : List Span} (h : OwnTimes env own spans) :
    ∀ s ∈ spans, own s = codeOwn env s ∧ ∃ ts, spanTimes env.reg s.annotations = some (.ok ts) := by
  intro s hs
  obtain ⟨ts, h1, h2⟩ := h s hs
  refine ⟨?_, ts, h1⟩
  simp only [codeOwn, h1]
  exact h2.unique (ownTime_isOwn _ _)

mutual

theorem calcProfile_spec (env : ViewEnv) (own : Span → Int) : ∀ t : Tree, OwnTimes env own t.spans →
    ∃ ps p, calcProfile env t = some (.ok (ps, p)) ∧ EntryOf own t p ∧ ps.head? = some p ∧
      List.Forall₂ (EntryOf own) t.subtrees ps
  | .node s cs, h => by
    simp only [Tree.spans] at h
    obtain ⟨he, ts, hts⟩ := h.eq s (List.mem_cons_self ..)
    have hown : ownTime env.millis 0 ts = own s := by rw [he]; simp only [codeOwn, hts]
    obtain ⟨buf, h1, h2⟩ := calcProfiles_spec env own cs (fun x hx => h x (List.mem_cons_of_mem _ hx)) (own s) (own s)
    have hE : EntryOf own (.node s cs) ⟨profileName s, spanURL s.id, own s, own s + (cs.map fun c => own c.span).sum,
        own s + ((Tree.spansList cs).map own).sum⟩ :=
      { name := rfl, url := rfl, time := rfl, timeChildren := rfl, timeCum := by simp [Tree.spans] }
    refine ⟨_ :: buf, _, ?_, hE, rfl, ?_⟩
    · simp only [calcProfile, hts, hown, h1]
    · simp only [Tree.subtrees]
      exact .cons hE h2

theorem calcProfiles_spec (env : ViewEnv) (own : Span → Int) : ∀ cs : List Tree, OwnTimes env own (Tree.spansList cs) →
    ∀ a b : Int, ∃ ps, calcProfiles env cs a b =
      some (.ok (ps, a + (cs.map fun c => own c.span).sum, b + ((Tree.spansList cs).map own).sum)) ∧
      List.Forall₂ (EntryOf own) (subtreesList cs) ps
  | [], _ => fun a b => ⟨[], by simp [calcProfiles, Tree.spansList], .nil⟩
  | c :: cs, h => by
    intro a b
    simp only [Tree.spansList] at h
    obtain ⟨ps, p, h1, h2, _, h3⟩ := calcProfile_spec env own c fun x hx => h x (List.mem_append_left _ hx)
    obtain ⟨qs, h4, h5⟩ := calcProfiles_spec env own cs (fun x hx => h x (List.mem_append_right _ hx)) (a + p.time)
      (b + p.timeCum)
    refine ⟨ps ++ qs, ?_, ?_⟩
    · simp only [calcProfiles, h1, h4]
      rw [h2.time, h2.timeCum]
      simp [Tree.spansList, Int.add_assoc]
    · simp only [subtreesList]
      exact List.rel_append h3 h5

end

mutual

/-- If a profile is computed, all events could be read. -/
theorem calcProfile_ok (env : ViewEnv) : ∀ (t : Tree) (r : List Profile × Profile), calcProfile env t = some (.ok r) →
    OwnTimes env (codeOwn env) t.spans
  | .node s cs, r, h => by
    simp only [calcProfile] at h
    cases hts : spanTimes env.reg s.annotations with
    | none => rw [hts] at h; simp at h
    | some x =>
      rw [hts] at h
      cases x with
      | error e => simp at h
      | ok ts =>
        simp only at h
        cases hc : calcProfiles env cs (ownTime env.millis 0 ts) (ownTime env.millis 0 ts) with
        | none => rw [hc] at h; simp at h
        | some y =>
          rw [hc] at h
          cases y with
          | error e => simp at h
          | ok z =>
            intro x hx
            simp only [Tree.spans] at hx
            rcases List.mem_cons.1 hx with rfl | hx
            · exact ⟨ts, hts, by simp only [codeOwn, hts]; exact ownTime_isOwn _ _⟩
            · exact calcProfiles_ok env cs _ _ z hc x hx

theorem calcProfiles_ok (env : ViewEnv) : ∀ (cs : List Tree) (a b : Int) (r : List Profile × Int × Int),
    calcProfiles env cs a b = some (.ok r) → OwnTimes env (codeOwn env) (Tree.spansList cs)
  | [], _, _, _, _ => by intro x hx; simp [Tree.spansList] at hx
  | c :: cs, a, b, r, h => by
    simp only [calcProfiles] at h
    cases hc : calcProfile env c with
    | none => rw [hc] at h; simp at h
    | some x =>
      rw [hc] at h
      cases x with
      | error e => simp at h
      | ok y =>
        simp only at h
        cases hd : calcProfiles env cs (a + y.2.time) (b + y.2.timeCum) with
        | none => rw [hd] at h; simp at h
        | some z =>
          rw [hd] at h
          cases z with
          | error e => simp at h
          | ok w =>
            intro x hx
            simp only [Tree.spansList] at hx
            rcases List.mem_append.1 hx with hx | hx
            · exact calcProfile_ok env c y hc x hx
            · exact calcProfiles_ok env cs _ _ w hd x hx

end

mutual
theorem subtrees_map_span : ∀ t : Tree, t.subtrees.map Tree.span = t.spans
  | .node s cs => by simp only [Tree.subtrees, Tree.spans, List.map_cons, Tree.span, subtreesList_map_span cs]
theorem subtreesList_map_span : ∀ cs : List Tree, (subtreesList cs).map Tree.span = Tree.spansList cs
  | [] => rfl
  | c :: cs => by
    simp only [subtreesList, Tree.spansList, List.map_append, subtrees_map_span c, subtreesList_map_span cs]
end

/-! ## Aggregation -/

/-- Feeding contributions to the map. -/
def aggFeed : List (Bytes × Int) → AMap Bytes Int → AMap Bytes Int
  | [], m => m
  | c :: cs, m => aggFeed cs (aggUp m c.1 c.2)

theorem aggFeed_append (cs ds : List (Bytes × Int)) (m : AMap Bytes Int) :
    aggFeed (cs ++ ds) m = aggFeed ds (aggFeed cs m) := by
  induction cs generalizing m with
  | nil => rfl
  | cons c cs ih => exact ih _

theorem aggSpans_feed (label : Profile → Bytes) (ps : List Profile) (m : AMap Bytes Int) :
    aggSpans label ps m = aggFeed (ps.map fun p => (label p, p.time)) m := by
  induction ps generalizing m with
  | nil => rfl
  | cons p ps ih => exact ih _

theorem forall₂_map_eq {α β γ : Type} {R : α → β → Prop} {f : α → γ} {g : β → γ} {as : List α} {bs : List β}
    (h : List.Forall₂ R as bs) (hR : ∀ a b, R a b → f a = g b) : as.map f = bs.map g := by
  induction h with
  | nil => rfl
  | cons hab _ ih => simp [hR _ _ hab, ih]

/-- The aggregate view is a feed of the contributions. -/
theorem aggTraces_feed (env : ViewEnv) (mode : AggMode) (own : Span → Int) (ts : List Tree) (m : AMap Bytes Int)
    (h : ∀ t ∈ ts, OwnTimes env own t.spans) :
    aggTraces env mode ts m = some (.ok (aggFeed (ts.flatMap (contributions own mode)) m)) := by
  induction ts generalizing m with
  | nil => rfl
  | cons t ts ih =>
    obtain ⟨ps, p, h1, h2, h3, h4⟩ := calcProfile_spec env own t (h t (List.mem_cons_self ..))
    have ih := fun m => ih m fun x hx => h x (List.mem_cons_of_mem _ hx)
    rw [List.flatMap_cons, aggFeed_append]
    cases hps : ps with
    | nil => rw [hps] at h3; simp at h3
    | cons q rest =>
      rw [hps] at h1 h3 h4
      have hspans : ∀ f : Span → Bytes × Int, (∀ a b, EntryOf own a b → f a.span = (b.name, b.time)) →
          t.spans.tail.map f = rest.map fun b => (b.name, b.time) := by
        intro f hf
        rw [← subtrees_map_span t]
        have := forall₂_map_eq (f := fun a => f a.span) (g := fun b : Profile => (b.name, b.time)) h4 hf
        have := congrArg List.tail this
        rw [← List.map_tail, ← List.map_tail] at this
        simpa [List.map_map, ← List.map_tail, Function.comp_def] using this
      cases mode with
      | traceOnly =>
        simp only [aggTraces, h1, ih]
        simp only [contributions, aggFeed, spanLabel, h2.name, h2.timeCum]
      | spanOnly =>
        simp only [aggTraces, h1, ih, aggSpans_feed]
        simp only [contributions]
        rw [hspans _ fun a b hab => by simp only [spanLabel, hab.name, hab.time]]
      | traceAndSpan =>
        simp only [aggTraces, h1, ih, aggSpans_feed]
        simp only [contributions]
        have := congrArg (List.map fun c : Bytes × Int => (spanLabel t.span ++ b!": " ++ c.1, c.2))
          (hspans (fun s => (spanLabel s, own s)) fun a b hab => by simp only [spanLabel, hab.name, hab.time])
        rw [List.map_map, List.map_map] at this
        simp only [Function.comp_def] at this
        rw [this]
        have hn : p.name = spanLabel t.span := h2.name
        rw [hn]

/-- The value of an item after more contributions. -/
def aggTotal : Option Int → List Int → Option Int
  | o, [] => o
  | o, v :: vs =>
    let x := o.getD 0 + v
    aggTotal (some (if x = 0 then 1 else x)) vs

theorem aggFeed_get (cs : List (Bytes × Int)) (m : AMap Bytes Int) (l : Bytes) :
    AMap.get (aggFeed cs m) l = aggTotal (AMap.get m l) (timesUnder l cs) := by
  induction cs generalizing m with
  | nil => rfl
  | cons c cs ih =>
    simp only [aggFeed, ih]
    by_cases hc : c.1 = l
    · subst hc
      simp only [timesUnder, List.filter_cons, decide_true, if_true, List.map_cons, aggTotal, aggUp, AMap.get_set_self]
    · simp only [timesUnder, List.filter_cons, hc, decide_false, Bool.false_eq_true, if_false, aggUp]
      rw [AMap.get_set_ne _ _ hc]

theorem aggTotal_pos (x : Int) (hx : 0 < x) (vs : List Int) (hv : ∀ v ∈ vs, 0 ≤ v) :
    aggTotal (some x) vs = some (x + vs.sum) := by
  induction vs generalizing x with
  | nil => simp [aggTotal]
  | cons v vs ih =>
    have := hv v (List.mem_cons_self ..)
    simp only [aggTotal, Option.getD_some]
    rw [if_neg (by omega), ih _ (by omega) fun w hw => hv w (List.mem_cons_of_mem _ hw)]
    simp [Int.add_assoc]

theorem aggTotal_none (v : Int) (vs : List Int) (hv : ∀ w ∈ v :: vs, 0 ≤ w) :
    aggTotal none (v :: vs) = some ((v :: vs).sum + if v = 0 then 1 else 0) := by
  have h0 := hv v (List.mem_cons_self ..)
  simp only [aggTotal, Option.getD_none, Int.zero_add]
  rw [aggTotal_pos _ (by split <;> omega) vs fun w hw => hv w (List.mem_cons_of_mem _ hw)]
  simp only [List.sum_cons]
  split
  all_goals simp
  all_goals omega

theorem aggFeed_nodup (cs : List (Bytes × Int)) (m : AMap Bytes Int) (h : m.keys.Nodup) : (aggFeed cs m).keys.Nodup := by
  induction cs generalizing m with
  | nil => exact h
  | cons c cs ih => exact ih _ (AMap.nodup_keys_set _ _ _ h)

theorem sum_nonneg' (vs : List Int) (h : ∀ v ∈ vs, 0 ≤ v) : 0 ≤ vs.sum := by
  induction vs with
  | nil => simp
  | cons v vs ih =>
    have := h v (List.mem_cons_self ..)
    have := ih fun w hw => h w (List.mem_cons_of_mem _ hw)
    simp only [List.sum_cons]; omega

theorem contributions_nonneg {env : ViewEnv} {own : Span → Int} {mode : AggMode} {t : Tree} (h : OwnTimes env own t.spans) :
    ∀ c ∈ contributions own mode t, 0 ≤ c.2 := by
  have hn : ∀ s ∈ t.spans, 0 ≤ own s := fun s hs => by obtain ⟨ts, _, h2⟩ := h s hs; exact h2.nonneg
  intro c hc
  cases mode with
  | traceOnly =>
    simp only [contributions, List.mem_singleton] at hc
    subst hc
    exact sum_nonneg' _ (by intro v hv; obtain ⟨s, hs, rfl⟩ := List.mem_map.1 hv; exact hn s hs)
  | spanOnly =>
    simp only [contributions] at hc
    obtain ⟨s, hs, rfl⟩ := List.mem_map.1 hc
    exact hn s (List.mem_of_mem_tail hs)
  | traceAndSpan =>
    simp only [contributions] at hc
    obtain ⟨s, hs, rfl⟩ := List.mem_map.1 hc
    exact hn s (List.mem_of_mem_tail hs)

/-! ## Timeline -/

theorem timelineTimes_root (times : List TimelineSpan) (ts : List (Bytes × GoTime × GoTime)) :
    timelineTimes true times ts =
      times ++ (validTimes ts).map fun p => ⟨p.1, unixMilli p.2.1, unixMilli p.2.2, 0⟩ := by
  induction ts generalizing times with
  | nil => simp [timelineTimes, validTimes]
  | cons p ts ih =>
    obtain ⟨n, s, e⟩ := p
    simp only [timelineTimes]
    by_cases hz : s = .zero ∨ e = .zero
    · rw [if_pos hz, ih]
      have : ¬ (s ≠ .zero ∧ e ≠ .zero) := by
        rintro ⟨h1, h2⟩; rcases hz with h | h
        · exact h1 h
        · exact h2 h
      simp only [validTimes, List.filter_cons, this, decide_false, Bool.false_eq_true, if_false]
    · rw [if_neg hz, if_pos trivial, ih]
      have : s ≠ .zero ∧ e ≠ .zero := ⟨fun h => hz (.inl h), fun h => hz (.inr h)⟩
      simp [validTimes, List.filter_cons, this]

theorem timelineTimes_child_some (t : TimelineSpan) (ts : List (Bytes × GoTime × GoTime)) :
    ∃ t', timelineTimes false [t] ts = [t'] ∧ t'.label = t.label ∧ t'.duration = t.duration ∧
      t'.start ≤ t.start ∧ (∀ p ∈ validTimes ts, t'.start ≤ unixMilli p.2.1) ∧
      (t'.start = t.start ∨ ∃ p ∈ validTimes ts, t'.start = unixMilli p.2.1) ∧
      t.fin ≤ t'.fin ∧ (∀ p ∈ validTimes ts, unixMilli p.2.2 ≤ t'.fin) ∧
      (t'.fin = t.fin ∨ ∃ p ∈ validTimes ts, t'.fin = unixMilli p.2.2) := by
  induction ts generalizing t with
  | nil => exact ⟨t, rfl, rfl, rfl, Int.le_refl _, by simp [validTimes], .inl rfl, Int.le_refl _, by simp [validTimes], .inl rfl⟩
  | cons p ts ih =>
    obtain ⟨n, s, e⟩ := p
    simp only [timelineTimes]
    by_cases hz : s = .zero ∨ e = .zero
    · rw [if_pos hz]
      have hv : validTimes ((n, s, e) :: ts) = validTimes ts := by
        have : ¬ (s ≠ .zero ∧ e ≠ .zero) := by
          rintro ⟨h1, h2⟩; rcases hz with h | h
          · exact h1 h
          · exact h2 h
        simp only [validTimes, List.filter_cons, this, decide_false, Bool.false_eq_true, if_false]
      rw [hv]
      exact ih t
    · rw [if_neg hz]
      have hv : validTimes ((n, s, e) :: ts) = (n, s, e) :: validTimes ts := by
        have : s ≠ .zero ∧ e ≠ .zero := ⟨fun h => hz (.inl h), fun h => hz (.inr h)⟩
        simp [validTimes, List.filter_cons, this]
      rw [hv]
      simp only [Bool.false_eq_true, if_false]
      obtain ⟨t', h0, h1, h2, h3, h4, h5, h6, h7, h8⟩ := ih
        { t with start := if t.start > unixMilli s then unixMilli s else t.start,
                 fin := if t.fin < unixMilli e then unixMilli e else t.fin }
      simp only at h1 h2 h3 h5 h6 h8
      refine ⟨t', h0, h1, h2, ?_, ?_, ?_, ?_, ?_, ?_⟩
      · split at h3 <;> omega
      · intro q hq
        rcases List.mem_cons.1 hq with rfl | hq
        · simp only; split at h3 <;> omega
        · exact h4 q hq
      · rcases h5 with h5 | ⟨q, hq, h5⟩
        · by_cases hg : t.start > unixMilli s
          · right; exact ⟨_, List.mem_cons_self .., by rw [h5, if_pos hg]⟩
          · left; rw [h5, if_neg hg]
        · right; exact ⟨q, List.mem_cons_of_mem _ hq, h5⟩
      · split at h6 <;> omega
      · intro q hq
        rcases List.mem_cons.1 hq with rfl | hq
        · simp only; split at h6 <;> omega
        · exact h7 q hq
      · rcases h8 with h8 | ⟨q, hq, h8⟩
        · by_cases hg : t.fin < unixMilli e
          · right; exact ⟨_, List.mem_cons_self .., by rw [h8, if_pos hg]⟩
          · left; rw [h8, if_neg hg]
        · right; exact ⟨q, List.mem_cons_of_mem _ hq, h8⟩

theorem timelineTimes_child (ts : List (Bytes × GoTime × GoTime)) :
    (validTimes ts = [] ∧ timelineTimes false [] ts = []) ∨
      ∃ t, timelineTimes false [] ts = [t] ∧ t.duration = 0 ∧ MergedTime ts t := by
  induction ts with
  | nil => exact .inl ⟨rfl, rfl⟩
  | cons p ts ih =>
    obtain ⟨n, s, e⟩ := p
    simp only [timelineTimes]
    by_cases hz : s = .zero ∨ e = .zero
    · rw [if_pos hz]
      have hv : validTimes ((n, s, e) :: ts) = validTimes ts := by
        have : ¬ (s ≠ .zero ∧ e ≠ .zero) := by
          rintro ⟨h1, h2⟩; rcases hz with h | h
          · exact h1 h
          · exact h2 h
        simp only [validTimes, List.filter_cons, this, decide_false, Bool.false_eq_true, if_false]
      rcases ih with ⟨h1, h2⟩ | ⟨t, h1, h2, h3⟩
      · exact .inl ⟨hv.trans h1, h2⟩
      · right
        exact ⟨t, h1, h2, ⟨hv ▸ h3.start_mem, hv ▸ h3.start_le, hv ▸ h3.fin_mem, hv ▸ h3.le_fin⟩⟩
    · rw [if_neg hz]
      have hv : validTimes ((n, s, e) :: ts) = (n, s, e) :: validTimes ts := by
        have : s ≠ .zero ∧ e ≠ .zero := ⟨fun h => hz (.inl h), fun h => hz (.inr h)⟩
        simp [validTimes, List.filter_cons, this]
      simp only [Bool.false_eq_true, if_false]
      obtain ⟨t', h0, h1, h2, h3, h4, h5, h6, h7, h8⟩ := timelineTimes_child_some ⟨[], unixMilli s, unixMilli e, 0⟩ ts
      right
      refine ⟨t', h0, h2, ⟨?_, ?_, ?_, ?_⟩⟩
      · rw [hv]
        rcases h5 with h5 | ⟨q, hq, h5⟩
        · exact ⟨_, List.mem_cons_self .., h5⟩
        · exact ⟨q, List.mem_cons_of_mem _ hq, h5⟩
      · rw [hv]; intro q hq
        rcases List.mem_cons.1 hq with rfl | hq
        · exact h3
        · exact h4 q hq
      · rw [hv]
        rcases h8 with h8 | ⟨q, hq, h8⟩
        · exact ⟨_, List.mem_cons_self .., h8⟩
        · exact ⟨q, List.mem_cons_of_mem _ hq, h8⟩
      · rw [hv]; intro q hq
        rcases List.mem_cons.1 hq with rfl | hq
        · exact h6
        · exact h7 q hq

theorem labelTimes_nil_iff (d : Int → Bytes) (l : Bytes) (times : List TimelineSpan) :
    labelTimes d l times = [] ↔ times = [] := by
  cases times <;> simp [labelTimes]

theorem timelineTimes_nil_iff (root : Bool) (ts : List (Bytes × GoTime × GoTime)) :
    timelineTimes root [] ts = [] ↔ validTimes ts = [] := by
  cases root with
  | true => rw [timelineTimes_root]; simp
  | false =>
    rcases timelineTimes_child ts with ⟨h1, h2⟩ | ⟨t, h1, _, h3⟩
    · simp [h1, h2]
    · rw [h1]
      obtain ⟨p, hp, _⟩ := h3.start_mem
      constructor
      · intro h; simp at h
      · intro h; rw [h] at hp; simp at hp

/-- What `labelTimes` keeps. -/
theorem labelTimes_same (d : Int → Bytes) (l : Bytes) (times : List TimelineSpan) :
    List.Forall₂ (fun (a b : TimelineSpan) => b.start = a.start ∧ b.fin = a.fin) times (labelTimes d l times) := by
  cases times with
  | nil => exact .nil
  | cons t ts =>
    simp only [labelTimes]
    generalize ((t.fin - t.start) * 1000000).bmod (2 ^ 64) = m
    generalize t :: ts = us
    induction us with
    | nil => exact .nil
    | cons u us ih =>
      refine .cons ?_ ih
      split <;> exact ⟨rfl, rfl⟩

/-- The timespans of an item. -/
theorem times_spec (d : Int → Bytes) (l : Bytes) (root : Bool) (ts : List (Bytes × GoTime × GoTime))
    (hne : validTimes ts ≠ []) : TimesOf (root = true) ts (labelTimes d l (timelineTimes root [] ts)) := by
  cases root with
  | true =>
    refine ⟨fun _ => ?_, fun h => absurd rfl h⟩
    have h1 := labelTimes_same d l (timelineTimes true [] ts)
    unfold RootTimes
    rw [timelineTimes_root, List.nil_append] at h1 ⊢
    rw [List.forall₂_map_left_iff] at h1
    exact h1
  | false =>
    refine ⟨fun h => absurd h (by decide), fun _ => ?_⟩
    rcases timelineTimes_child ts with ⟨h1, h2⟩ | ⟨t, h1, _, h3⟩
    · exact absurd h1 hne
    · rw [h1]
      have h := labelTimes_same d l [t]
      generalize labelTimes d l [t] = L at h
      cases h with
      | @cons _ b _ bs hab hn =>
        cases hn
        refine ⟨b, rfl, ?_⟩
        exact ⟨hab.1 ▸ h3.start_mem, hab.1 ▸ h3.start_le, hab.2 ▸ h3.fin_mem, hab.2 ▸ h3.le_fin⟩

/-- All durations are that of the first timespan. -/
theorem labelTimes_duration (d : Int → Bytes) (l : Bytes) (first : TimelineSpan) (rest : List TimelineSpan)
    (h0 : ∀ t ∈ first :: rest, t.duration = 0)
    (hfit : (first.fin - first.start) * 1000000 < 2 ^ 63 ∧ -2 ^ 63 ≤ (first.fin - first.start) * 1000000) :
    ∀ t ∈ labelTimes d l (first :: rest), t.duration = first.length := by
  have hb : ((first.fin - first.start) * 1000000).bmod (2 ^ 64) = (first.fin - first.start) * 1000000 := by
    apply Int.bmod_eq_of_le <;> omega
  intro t ht
  simp only [labelTimes, hb] at ht
  obtain ⟨u, hu, rfl⟩ := List.mem_map.1 ht
  unfold TimelineSpan.length
  split
  · simp only; omega
  · rw [h0 u hu]; omega

theorem timelineTimes_duration (root : Bool) (ts : List (Bytes × GoTime × GoTime)) :
    ∀ t ∈ timelineTimes root [] ts, t.duration = 0 := by
  cases root with
  | true =>
    rw [timelineTimes_root, List.nil_append]
    intro t ht
    obtain ⟨p, _, rfl⟩ := List.mem_map.1 ht
    rfl
  | false =>
    rcases timelineTimes_child ts with ⟨h1, h2⟩ | ⟨t, h1, h2, _⟩
    · rw [h2]; simp
    · rw [h1]; simpa using h2

/-- The first timespan of an item, and the durations of all. -/
theorem durations_spec (d : Int → Bytes) (l : Bytes) (root : Bool) (ts : List (Bytes × GoTime × GoTime))
    (hne : validTimes ts ≠ []) (hfit : TimesFit (validTimes ts)) :
    ∃ first rest, labelTimes d l (timelineTimes root [] ts) = first :: rest ∧
      ∀ t ∈ first :: rest, t.duration = first.length := by
  have hd := timelineTimes_duration root ts
  have hs := labelTimes_same d l (timelineTimes root [] ts)
  have hfit' : ∀ t ∈ timelineTimes root [] ts,
      (t.fin - t.start) * 1000000 < 2 ^ 63 ∧ -2 ^ 63 ≤ (t.fin - t.start) * 1000000 := by
    cases root with
    | true =>
      rw [timelineTimes_root, List.nil_append]
      intro t ht
      obtain ⟨p, hp, rfl⟩ := List.mem_map.1 ht
      exact hfit p hp p hp
    | false =>
      rcases timelineTimes_child ts with ⟨h1, h2⟩ | ⟨t, h1, h2, h3⟩
      · exact absurd h1 hne
      · rw [h1]
        intro u hu
        simp only [List.mem_singleton] at hu
        subst hu
        obtain ⟨p, hp, hps⟩ := h3.start_mem
        obtain ⟨q, hq, hqs⟩ := h3.fin_mem
        rw [hps, hqs]
        exact hfit p hp q hq
  cases hT : timelineTimes root [] ts with
  | nil => exact absurd ((timelineTimes_nil_iff root ts).1 hT) hne
  | cons first rest =>
    rw [hT] at hd hs hfit'
    have hdur := labelTimes_duration d l first rest hd (hfit' first (List.mem_cons_self ..))
    cases hL : labelTimes d l (first :: rest) with
    | nil => rw [labelTimes_nil_iff] at hL; simp at hL
    | cons b bs =>
      rw [hL] at hs hdur
      refine ⟨b, bs, rfl, ?_⟩
      cases hs with
      | cons hab _ =>
        intro t ht
        rw [hdur t ht]
        unfold TimelineSpan.length
        rw [hab.1, hab.2]

/-- The item the code makes for a span. -/
def codeItem (env : ViewEnv) (depth : Nat) (s : Span) (ts : List (Bytes × GoTime × GoTime)) : TimelineItem :=
  { label := annotationsName s.annotations, fullLabel := annotationsName s.annotations,
    times := labelTimes env.durText (annotationsName s.annotations) (timelineTimes (s.id.parent == 0) [] ts),
    data := stringMap s.annotations, spanID := s.id.span.toText,
    parentSpanID := if s.id.parent ≠ 0 then s.id.parent.toText else [], url := spanURL s.id, visible := decide (depth ≤ 1) }

theorem codeItem_itemOf (env : ViewEnv) (depth : Nat) (s : Span) (ts : List (Bytes × GoTime × GoTime)) :
    ItemOf depth s (codeItem env depth s ts) :=
  { label := rfl, fullLabel := rfl, data := rfl, spanID := rfl,
    parentSpanID := by simp only [codeItem]; by_cases h : s.id.parent = 0 <;> simp [h],
    url := rfl, visible := by simp [codeItem] }

/-- The relation between a span that is shown and its item. -/
def Made (env : ViewEnv) (x : Nat × Span) (i : TimelineItem) : Prop :=
  ∃ ts, spanTimes env.reg x.2.annotations = some (.ok ts) ∧ validTimes ts ≠ [] ∧ i = codeItem env x.1 x.2 ts

mutual

theorem timeline_spec (env : ViewEnv) : ∀ (t : Tree) (depth : Nat), Readable env t.spans →
    ∃ items, d3timelineInner env depth t = some (.ok items) ∧ List.Forall₂ (Made env) (shown env depth t) items
  | .node s cs, depth, h => by
    simp only [Tree.spans] at h
    obtain ⟨hn, ts, hts⟩ := h s (List.mem_cons_self ..)
    obtain ⟨items, h1, h2⟩ := timelineSubs_spec env cs (depth + 1) fun x hx => h x (List.mem_cons_of_mem _ hx)
    by_cases hv : validTimes ts = []
    · refine ⟨[], ?_, ?_⟩
      · have hT : labelTimes env.durText (annotationsName s.annotations) (timelineTimes (s.id.parent == 0) [] ts) = [] := by
          rw [labelTimes_nil_iff, timelineTimes_nil_iff]; exact hv
        simp only [d3timelineInner, hts, hn, if_false, hT, if_true]
      · simp only [shown, timed, hts, hv]
        exact .nil
    · refine ⟨codeItem env depth s ts :: items, ?_, ?_⟩
      · have hT : ¬ labelTimes env.durText (annotationsName s.annotations) (timelineTimes (s.id.parent == 0) [] ts) = [] := by
          rw [labelTimes_nil_iff, timelineTimes_nil_iff]; exact hv
        simp only [d3timelineInner, hts, hn, if_false, hT, h1]
        rfl
      · have ht : timed env s = true := by
          simp only [timed, hts]
          cases hc : validTimes ts with
          | nil => exact absurd hc hv
          | cons _ _ => rfl
        simp only [shown, ht, if_true]
        exact .cons ⟨ts, hts, hv, rfl⟩ h2

theorem timelineSubs_spec (env : ViewEnv) : ∀ (cs : List Tree) (depth : Nat), Readable env (Tree.spansList cs) →
    ∃ items, d3timelineSubs env depth cs = some (.ok items) ∧ List.Forall₂ (Made env) (shownList env depth cs) items
  | [], depth, _ => ⟨[], rfl, .nil⟩
  | c :: cs, depth, h => by
    simp only [Tree.spansList] at h
    obtain ⟨is, h1, h2⟩ := timeline_spec env c depth fun x hx => h x (List.mem_append_left _ hx)
    obtain ⟨js, h3, h4⟩ := timelineSubs_spec env cs depth fun x hx => h x (List.mem_append_right _ hx)
    refine ⟨is ++ js, ?_, ?_⟩
    · simp only [d3timelineSubs, h1, h3]
    · simp only [shownList]
      exact List.rel_append h2 h4

end

mutual

theorem shown_all (env : ViewEnv) : ∀ (t : Tree) (depth : Nat), (∀ s ∈ t.spans, timed env s = true) →
    (shown env depth t).map Prod.snd = t.spans
  | .node s cs, depth, h => by
    simp only [Tree.spans] at h ⊢
    simp only [shown, h s (List.mem_cons_self ..), if_true, List.map_cons,
      shownList_all env cs (depth + 1) fun x hx => h x (List.mem_cons_of_mem _ hx)]

theorem shownList_all (env : ViewEnv) : ∀ (cs : List Tree) (depth : Nat), (∀ s ∈ Tree.spansList cs, timed env s = true) →
    (shownList env depth cs).map Prod.snd = Tree.spansList cs
  | [], _, _ => rfl
  | c :: cs, depth, h => by
    simp only [Tree.spansList] at h ⊢
    simp only [shownList, List.map_append, shown_all env c depth fun x hx => h x (List.mem_append_left _ hx),
      shownList_all env cs depth fun x hx => h x (List.mem_append_right _ hx)]

end

mutual

theorem shown_mem (env : ViewEnv) : ∀ (t : Tree) (depth : Nat), ∀ x ∈ shown env depth t, x.2 ∈ t.spans
  | .node s cs, depth, x, hx => by
    simp only [shown] at hx
    simp only [Tree.spans]
    split at hx
    · rcases List.mem_cons.1 hx with rfl | hx
      · exact List.mem_cons_self ..
      · exact List.mem_cons_of_mem _ (shownList_mem env cs (depth + 1) x hx)
    · simp at hx

theorem shownList_mem (env : ViewEnv) : ∀ (cs : List Tree) (depth : Nat), ∀ x ∈ shownList env depth cs, x.2 ∈ Tree.spansList cs
  | [], _, x, hx => by simp [shownList] at hx
  | c :: cs, depth, x, hx => by
    simp only [shownList] at hx
    simp only [Tree.spansList]
    rcases List.mem_append.1 hx with hx | hx
    · exact List.mem_append_left _ (shown_mem env c depth x hx)
    · exact List.mem_append_right _ (shownList_mem env cs depth x hx)

end

theorem forall₂_mem_right {α β : Type} {R : α → β → Prop} {as : List α} {bs : List β} (h : List.Forall₂ R as bs) {b : β}
    (hb : b ∈ bs) : ∃ a ∈ as, R a b := by
  induction h with
  | nil => simp at hb
  | cons hab _ ih =>
    rcases List.mem_cons.1 hb with rfl | hb
    · exact ⟨_, List.mem_cons_self .., hab⟩
    · obtain ⟨a, ha, h⟩ := ih hb; exact ⟨a, List.mem_cons_of_mem _ ha, h⟩

theorem perm_sum {x y : List Int} (h : x.Perm y) : x.sum = y.sum := by
  induction h with
  | nil => rfl
  | cons _ _ ih => simp [ih]
  | swap => simp only [List.sum_cons]; omega
  | trans _ _ h1 h2 => exact h1.trans h2

mutual

theorem shown_iff (env : ViewEnv) : ∀ (t : Tree) (depth : Nat) (s : Span),
    (∃ d, (d, s) ∈ shown env depth t) ↔ TimedPath env t s
  | .node r cs, depth, s => by
    simp only [shown]
    by_cases hr : timed env r = true
    · rw [if_pos hr]
      have ih := shownList_iff env cs (depth + 1) s
      constructor
      · rintro ⟨d, hd⟩
        rcases List.mem_cons.1 hd with h | h
        · cases h; exact .here _ _ hr
        · exact .under _ _ _ hr (ih.1 ⟨d, h⟩)
      · intro h
        cases h with
        | here => exact ⟨depth, List.mem_cons_self ..⟩
        | under _ _ _ _ h =>
          obtain ⟨d, hd⟩ := ih.2 h
          exact ⟨d, List.mem_cons_of_mem _ hd⟩
    · rw [if_neg hr]
      constructor
      · rintro ⟨d, hd⟩; simp at hd
      · intro h
        cases h with
        | here => exact absurd ‹_› hr
        | under => exact absurd ‹_› hr

theorem shownList_iff (env : ViewEnv) : ∀ (cs : List Tree) (depth : Nat) (s : Span),
    (∃ d, (d, s) ∈ shownList env depth cs) ↔ TimedPathIn env cs s
  | [], depth, s => by
    simp only [shownList]
    constructor
    · rintro ⟨d, hd⟩; simp at hd
    · intro h; cases h
  | c :: cs, depth, s => by
    simp only [shownList]
    have h1 := shown_iff env c depth s
    have h2 := shownList_iff env cs depth s
    constructor
    · rintro ⟨d, hd⟩
      rcases List.mem_append.1 hd with h | h
      · exact .head _ _ _ (h1.1 ⟨d, h⟩)
      · exact .tail _ _ _ (h2.1 ⟨d, h⟩)
    · intro h
      cases h with
      | head _ _ _ h => obtain ⟨d, hd⟩ := h1.2 h; exact ⟨d, List.mem_append_left _ hd⟩
      | tail _ _ _ h => obtain ⟨d, hd⟩ := h2.2 h; exact ⟨d, List.mem_append_right _ hd⟩

end

mutual

/-- A timeline that is returned is the right one, whatever the spans are. -/
theorem timeline_ok_spec (env : ViewEnv) : ∀ (t : Tree) (depth : Nat) (items : List TimelineItem),
    d3timelineInner env depth t = some (.ok items) →
      List.Forall₂ (Made env) (shown env depth t) items ∧ annotationsName t.span.annotations ≠ [] ∧
        ∀ x ∈ shown env depth t, annotationsName x.2.annotations ≠ []
  | .node s cs, depth, items, h => by
    simp only [d3timelineInner] at h
    cases hts : spanTimes env.reg s.annotations with
    | none => rw [hts] at h; simp at h
    | some r =>
      cases r with
      | error e => rw [hts] at h; simp at h
      | ok ts =>
        rw [hts] at h
        simp only at h
        by_cases hn : annotationsName s.annotations = []
        · rw [if_pos hn] at h; simp at h
        · rw [if_neg hn] at h
          by_cases hv : validTimes ts = []
          · have hT : labelTimes env.durText (annotationsName s.annotations) (timelineTimes (s.id.parent == 0) [] ts) = [] := by
              rw [labelTimes_nil_iff, timelineTimes_nil_iff]; exact hv
            rw [if_pos hT] at h
            simp only [Option.some.injEq, Except.ok.injEq] at h
            subst h
            have : shown env depth (.node s cs) = [] := by simp [shown, timed, hts, hv]
            rw [this]
            exact ⟨.nil, hn, by simp⟩
          · have hT : ¬ labelTimes env.durText (annotationsName s.annotations) (timelineTimes (s.id.parent == 0) [] ts) = [] := by
              rw [labelTimes_nil_iff, timelineTimes_nil_iff]; exact hv
            rw [if_neg hT] at h
            have ht : timed env s = true := by
              simp only [timed, hts]
              cases hc : validTimes ts with
              | nil => exact absurd hc hv
              | cons _ _ => rfl
            cases hsub : d3timelineSubs env (depth + 1) cs with
            | none => rw [hsub] at h; simp at h
            | some r =>
              cases r with
              | error e => rw [hsub] at h; simp at h
              | ok is =>
                rw [hsub] at h
                simp only [Option.some.injEq, Except.ok.injEq] at h
                subst h
                obtain ⟨h1, h2⟩ := timelineSubs_ok_spec env cs (depth + 1) is hsub
                simp only [shown, ht, if_true]
                refine ⟨.cons ⟨ts, hts, hv, rfl⟩ h1, hn, ?_⟩
                intro x hx
                rcases List.mem_cons.1 hx with rfl | hx
                · exact hn
                · exact h2 x hx

theorem timelineSubs_ok_spec (env : ViewEnv) : ∀ (cs : List Tree) (depth : Nat) (items : List TimelineItem),
    d3timelineSubs env depth cs = some (.ok items) →
      List.Forall₂ (Made env) (shownList env depth cs) items ∧ ∀ x ∈ shownList env depth cs, annotationsName x.2.annotations ≠ []
  | [], depth, items, h => by
    simp only [d3timelineSubs, Option.some.injEq, Except.ok.injEq] at h
    subst h
    exact ⟨.nil, by simp [shownList]⟩
  | c :: cs, depth, items, h => by
    simp only [d3timelineSubs] at h
    cases h1 : d3timelineInner env depth c with
    | none => rw [h1] at h; simp at h
    | some r =>
      cases r with
      | error e => rw [h1] at h; simp at h
      | ok is =>
        rw [h1] at h
        cases h2 : d3timelineSubs env depth cs with
        | none => rw [h2] at h; simp at h
        | some r =>
          cases r with
          | error e => rw [h2] at h; simp at h
          | ok js =>
            rw [h2] at h
            simp only [Option.some.injEq, Except.ok.injEq] at h
            subst h
            obtain ⟨a1, _, a2⟩ := timeline_ok_spec env c depth is h1
            obtain ⟨b1, b2⟩ := timelineSubs_ok_spec env cs depth js h2
            simp only [shownList]
            refine ⟨List.rel_append a1 b1, ?_⟩
            intro x hx
            rcases List.mem_append.1 hx with hx | hx
            · exact a2 x hx
            · exact b2 x hx

end

end Appdash
