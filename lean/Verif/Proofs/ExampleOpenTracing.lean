import Verif.Spec.ExampleOpenTracing
import Verif.Properties.OpenTracingShown
import Verif.Properties.ExampleWebapp

/-!
# Lemmas about the example `webapp-opentracing`
-/

namespace Appdash.ExampleOT

open Spec

/-! ## The spans of the handlers -/

theorem foldl_fields (calls : List OTOutcome) : ∀ sp : RawSpan,
    (calls.foldl otHomeCall sp).trace = sp.trace ∧ (calls.foldl otHomeCall sp).span = sp.span ∧
    (calls.foldl otHomeCall sp).parent = sp.parent ∧ (calls.foldl otHomeCall sp).operation = sp.operation ∧
    (calls.foldl otHomeCall sp).sampled = sp.sampled ∧ (calls.foldl otHomeCall sp).baggage = sp.baggage ∧
    (calls.foldl otHomeCall sp).logs = sp.logs ++ (failures calls).map (fun e => ⟨e.1, [[(b!"event", e.2)]]⟩) ∧
    ∀ k, AMap.get (calls.foldl otHomeCall sp).tags k =
      if k = b!"Response.Status" then (lastStatus calls).or (AMap.get sp.tags k) else AMap.get sp.tags k := by
  induction calls with
  | nil => intro sp; simp [failures, lastStatus]
  | cons o calls ih =>
    intro sp
    obtain ⟨h1, h2, h3, h4, h5, h6, h7, h8⟩ := ih (otHomeCall sp o)
    rw [List.foldl_cons]
    cases o with
    | failed t e => exact ⟨h1, h2, h3, h4, h5, h6, by rw [h7]; simp [otHomeCall, failures], h8⟩
    | answered s =>
      refine ⟨h1, h2, h3, h4, h5, h6, h7, ?_⟩
      intro k
      rw [h8]
      show (if _ then (lastStatus calls).or (AMap.get (AMap.set sp.tags b!"Response.Status" s) k) else
        AMap.get (AMap.set sp.tags b!"Response.Status" s) k) = _
      rw [AMap.get_set, lastStatus]
      by_cases e : k = b!"Response.Status"
      · subst e; simp
      · rw [if_neg e, if_neg e, if_neg (Ne.symm e)]

theorem home_operation (trace span : ID) (start : GoTime) (duration : Int) (r : Request) (h : Header) (user : Bytes) (calls : List OTOutcome) :
    (otHomeSpan trace span start duration r h user calls).operation = r.urlPath := (foldl_fields calls _).2.2.2.1

theorem home_times (trace span : ID) (start : GoTime) (duration : Int) (r : Request) (h : Header) (user : Bytes) (calls : List OTOutcome) :
    (otHomeSpan trace span start duration r h user calls).start = start ∧
      (otHomeSpan trace span start duration r h user calls).duration = duration := by
  have key : ∀ (calls : List OTOutcome) (sp : RawSpan), (calls.foldl otHomeCall sp).start = sp.start ∧
      (calls.foldl otHomeCall sp).duration = sp.duration := by
    intro calls
    induction calls with
    | nil => exact fun _ => ⟨rfl, rfl⟩
    | cons o calls ih =>
      intro sp
      obtain ⟨h1, h2⟩ := ih (otHomeCall sp o)
      cases o <;> exact ⟨h1, h2⟩
  exact key calls _

theorem headerTags_other {k : Bytes} (hk : ∀ s, k ≠ b!"Request.Header." ++ s) : ∀ (h : Header) (tags : AMap Bytes Bytes),
    AMap.get (addHeaderTags tags h) k = AMap.get tags k
  | [], _ => rfl
  | e :: h, tags => by
    rw [addHeaderTags, List.foldl_cons]
    have := headerTags_other hk h (AMap.set tags (b!"Request.Header." ++ e.1) (joinWith b!", " e.2))
    rw [addHeaderTags] at this
    rw [this, AMap.get_set_ne _ _ (Ne.symm (hk _))]

theorem headerTags_old {k : Bytes} : ∀ (h : Header) (tags : AMap Bytes Bytes), k ∉ h.keys →
    AMap.get (addHeaderTags tags h) (b!"Request.Header." ++ k) = AMap.get tags (b!"Request.Header." ++ k)
  | [], _, _ => rfl
  | e :: h, tags, hk => by
    rw [addHeaderTags, List.foldl_cons]
    have := headerTags_old h (AMap.set tags (b!"Request.Header." ++ e.1) (joinWith b!", " e.2)) (fun hm => hk (List.mem_cons_of_mem _ hm))
    rw [addHeaderTags] at this
    rw [this, AMap.get_set_ne]
    intro e'
    exact hk (List.append_cancel_left e' ▸ List.mem_cons_self ..)

theorem headerTags_get {k : Bytes} {v : List Bytes} : ∀ (h : Header) (tags : AMap Bytes Bytes), h.keys.Nodup → (k, v) ∈ h →
    AMap.get (addHeaderTags tags h) (b!"Request.Header." ++ k) = some (joinWith b!", " v)
  | [], _, _, hm => by cases hm
  | e :: h, tags, hn, hm => by
    have hn' : e.1 ∉ AMap.keys h ∧ (AMap.keys h).Nodup := List.nodup_cons.1 hn
    rw [addHeaderTags, List.foldl_cons]
    rcases List.mem_cons.1 hm with rfl | hm
    · have := headerTags_old h (AMap.set tags (b!"Request.Header." ++ k) (joinWith b!", " v)) hn'.1
      rw [addHeaderTags] at this
      rw [this, AMap.get_set_self]
    · have := headerTags_get h (AMap.set tags (b!"Request.Header." ++ e.1) (joinWith b!", " e.2)) hn'.2 hm
      rwa [addHeaderTags] at this

/-- Every tag of the handlers has a key that begins with an `R`. -/
theorem headerTags_keys (h : Header) : ∀ (tags : AMap Bytes Bytes), (∀ k ∈ AMap.keys tags, k.head? = some 82) →
    ∀ k ∈ AMap.keys (addHeaderTags tags h), k.head? = some 82 := by
  induction h with
  | nil => exact fun tags ht => ht
  | cons e h ih =>
    intro tags ht
    refine ih (AMap.set tags (b!"Request.Header." ++ e.1) (joinWith b!", " e.2)) ?_
    intro k hk
    rcases (AMap.mem_keys_set _ _ _ _).1 hk with rfl | hk
    · rfl
    · exact ht k hk

theorem homeCall_keys (calls : List OTOutcome) : ∀ sp : RawSpan, (∀ k ∈ AMap.keys sp.tags, k.head? = some 82) →
    ∀ k ∈ AMap.keys (calls.foldl otHomeCall sp).tags, k.head? = some 82 := by
  induction calls with
  | nil => exact fun sp h => h
  | cons o calls ih =>
    intro sp h
    refine ih (otHomeCall sp o) ?_
    cases o with
    | failed t e => exact h
    | answered s =>
      intro k hk
      rcases (AMap.mem_keys_set _ _ _ _).1 hk with rfl | hk
      · rfl
      · exact h k hk

theorem not_reserved_R {k : Bytes} (h : k.head? = some 82) : ¬ Reserved k := by
  rintro (rfl | rfl | rfl | ⟨s, rfl⟩)
  · exact absurd h (by decide)
  · exact absurd h (by decide)
  · exact absurd h (by decide)
  · exact absurd (show some (95 : UInt8) = some 82 from h) (by decide)

theorem home_plain (trace span : ID) (start : GoTime) (duration : Int) (r : Request) (h : Header) (user : Bytes) (calls : List OTOutcome) :
    PlainTags (otHomeSpan trace span start duration r h user calls) := by
  intro e he
  rcases he with he | he
  · refine not_reserved_R (homeCall_keys calls _ (headerTags_keys h _ ?_) e.1 (List.mem_map_of_mem he))
    intro k hk
    have : k ∈ [b!"Request.Host", b!"Request.Address"] := hk
    simp only [List.mem_cons, List.not_mem_nil, or_false] at this
    rcases this with rfl | rfl <;> rfl
  · rw [show (otHomeSpan trace span start duration r h user calls).baggage = [(b!"User", user)] from (foldl_fields calls _).2.2.2.2.2.1] at he
    rw [List.mem_singleton.1 he]
    rintro (h | h | h | ⟨s, h⟩)
    · exact absurd h (by show ¬ b!"User" = b!"Name"; decide)
    · exact absurd h (by show ¬ b!"User" = b!"Msg"; decide)
    · exact absurd h (by show ¬ b!"User" = b!"Time"; decide)
    · cases h

/-! ## The trace -/

theorem endpoint_ids {extract : Header → Option OTContext} {home kid : RawSpan} (h : EndpointOf extract home kid) :
    kid.trace = home.trace ∧ kid.parent = home.span ∧ kid.sampled = home.sampled ∧ kid.operation = b!"/endpoint" := by
  obtain ⟨span, start, duration, r, hd, h1, ⟨ctx, h2, h3, h4, h5⟩, h6⟩ := h
  rw [otEndpointSpan, h2] at h1
  cases h1
  exact ⟨h3, h4, h5, h6⟩

/-- The tree of a visit. -/
def visitTree (home : RawSpan) (kids : List RawSpan) : Tree := .node ⟨spanIDOf home, []⟩ (kids.map fun k => .node ⟨spanIDOf k, []⟩ [])

theorem visitTree_spans (home : RawSpan) (kids : List RawSpan) :
    (visitTree home kids).spans = (home :: kids).map fun k => ⟨spanIDOf k, []⟩ := by
  have : ∀ ks : List RawSpan, Tree.spansList (ks.map fun k => .node ⟨spanIDOf k, []⟩ []) = ks.map fun k => ⟨spanIDOf k, []⟩ := by
    intro ks
    induction ks with
    | nil => rfl
    | cons k ks ih => rw [List.map_cons, Tree.spansList, ih]; simp [Tree.spans, Tree.spansList]
  rw [visitTree, Tree.spans, this, List.map_cons]

theorem visitEdges (kids : List RawSpan) : Tree.edgesList (kids.map fun k => .node ⟨spanIDOf k, []⟩ []) = [] := by
  induction kids with
  | nil => rfl
  | cons k ks ih => rw [List.map_cons, Tree.edgesList, ih]; rfl

theorem visitTree_bare (home : RawSpan) (kids : List RawSpan) : reannotate (fun _ => []) (visitTree home kids) = visitTree home kids := by
  have : ∀ ks : List RawSpan, reannotateList (fun _ => []) (ks.map fun k => .node ⟨spanIDOf k, []⟩ []) =
      ks.map fun k => .node ⟨spanIDOf k, []⟩ [] := by
    intro ks
    induction ks with
    | nil => rfl
    | cons k ks ih => rw [List.map_cons, reannotateList, ih]; rfl
  rw [visitTree, reannotate, this]

theorem reannotateList_map (f : SpanID → List Annotation) : ∀ ts, reannotateList f ts = ts.map (reannotate f)
  | [] => rfl
  | t :: ts => by rw [reannotateList, reannotateList_map f ts, List.map_cons]

theorem perm_of_map {α β : Type} (f : α → β) {l l' : List β} (h : l.Perm l') :
    ∀ ts : List α, l' = ts.map f → ∃ cs : List α, cs.Perm ts ∧ l = cs.map f := by
  induction h with
  | nil => intro ts e; exact ⟨ts, .refl _, e⟩
  | cons x _ ih =>
    intro ts e
    match ts, e with
    | t :: ts, e =>
      rw [List.map_cons, List.cons.injEq] at e
      obtain ⟨cs, hp, rfl⟩ := ih ts e.2
      exact ⟨t :: cs, hp.cons _, by rw [e.1, List.map_cons]⟩
  | swap x y l =>
    intro ts e
    match ts, e with
    | a :: b :: ts, e =>
      simp only [List.map_cons, List.cons.injEq] at e
      exact ⟨b :: a :: ts, .swap .., by rw [e.1, e.2.1, e.2.2]; rfl⟩
  | trans _ _ ih1 ih2 =>
    intro ts e
    obtain ⟨cs, hp, rfl⟩ := ih2 ts e
    obtain ⟨ds, hp', rfl⟩ := ih1 cs rfl
    exact ⟨ds, hp'.trans hp, rfl⟩

end Appdash.ExampleOT
