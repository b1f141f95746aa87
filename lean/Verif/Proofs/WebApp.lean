import Verif.Spec.WebApp
import Verif.Spec.Handler
import Verif.Proofs.Handler
import Verif.Proofs.BaseURL

namespace Appdash

open Spec

/-- The shapes of the pages that handlers make. -/
inductive PageIs : Page → Answer → Prop
  | failed {ops : List PageOp} {msg : Bytes} : PageIs ⟨ops, .error msg⟩ (.failed msg)
  | panicked {ops : List PageOp} {msg : Bytes} : PageIs ⟨ops, .panic msg⟩ (.failed msg)
  | stored : PageIs ⟨[], .ok⟩ .stored
  | data {b : Bytes} : PageIs ⟨[.write b], .ok⟩ (.data b)
  | disabled : PageIs ⟨[.writeHeader 404, .write b!"Dashboard is disabled."], .ok⟩ .disabled
  | html {b : Bytes} : PageIs ⟨[.writeHeader 200, .editHeader fun h =>
      if h.find b!"content-type" = [] then h.put b!"Content-Type" b!"text/html; charset=utf-8" else h, .write b], .ok⟩ (.html b)

theorem handleError_new (msg : Bytes) : AnsweredBy (handleError (.new []) msg) (.failed msg) :=
  httpError_new { (WebWriter.new []) with header := (WebWriter.new []).header.put b!"cache-control" b!"no-cache, max-age=0" }
    rfl rfl msg 500 (by decide) (by decide)

theorem PageIs.answers {p : Page} {a : Answer} (hp : PageIs p a) {pt : Bytes} {out : Option WebWriter}
    (h : PageServes p pt (.new []) out) : AnsweredBy out a := by
  cases hp with
  | failed => simp only [PageServes] at h; rw [h]; exact handleError_new _
  | panicked => simp only [PageServes] at h; rw [h]; exact handleError_new _
  | stored =>
    simp only [PageServes, Page.buffer, List.foldl_nil] at h
    obtain ⟨order, ho, h⟩ := h
    simp only [Option.getD_none, List.perm_nil] at ho
    subst ho
    exact ⟨_, h, rfl⟩
  | @data b =>
    simp only [PageServes, Page.buffer, List.foldl_cons, List.foldl_nil, ResponseBuffer.step, List.nil_append] at h
    obtain ⟨order, ho, h⟩ := h
    simp only [Option.getD_none, List.perm_nil] at ho
    subst ho
    cases b with
    | nil => exact ⟨_, h, rfl⟩
    | cons c b =>
      refine ⟨_, h, ?_⟩
      simp [ResponseBuffer.writeTo, WebWriter.received, WebWriter.write, WebWriter.new, bodyAllowed, Answer.response, withLength,
        copyHeader]
  | disabled =>
    simp only [PageServes, Page.buffer, List.foldl_cons, List.foldl_nil, ResponseBuffer.step, List.nil_append] at h
    obtain ⟨order, ho, h⟩ := h
    simp only [Option.getD_none, List.perm_nil] at ho
    subst ho
    exact ⟨_, h, by decide⟩
  | @html b =>
    have hc : (if Header.find [] b!"content-type" = [] then Header.put [] b!"Content-Type" b!"text/html; charset=utf-8" else []) =
        [(b!"Content-Type", [b!"text/html; charset=utf-8"])] := by decide
    simp only [PageServes, Page.buffer, List.foldl_cons, List.foldl_nil, ResponseBuffer.step, List.nil_append, Option.getD_none,
      Option.getD_some, hc] at h
    obtain ⟨order, ho, h⟩ := h
    rw [List.perm_singleton] at ho
    subst ho
    cases b with
    | nil => exact ⟨_, h, by decide⟩
    | cons c b =>
      refine ⟨_, h, ?_⟩
      simp [ResponseBuffer.writeTo, WebWriter.received, WebWriter.write, WebWriter.writeHeader, WebWriter.new, bodyAllowed,
        Answer.response, withLength, copyHeader, validStatus, AMap.set]

/-! ## Templates -/

theorem compiled_iff {τ : Type} {env : WebEnv τ} {files : TemplateFiles} {name : Bytes} {t : τ} :
    Compiled env files name t ↔ compileSet env.compile files [name, b!"layout.html"] = some t := by
  unfold Compiled compileSet
  simp only [List.mapM_cons, List.mapM_nil]
  rw [show b!"/" ++ name = 47 :: name from rfl, show b!"/layout.html" = 47 :: b!"layout.html" from rfl]
  cases files (47 :: name) with
  | none => simp
  | some a =>
    cases files (47 :: b!"layout.html") with
    | none => simp
    | some b => simp

theorem compiled_unique {τ : Type} {env : WebEnv τ} {files : TemplateFiles} {name : Bytes} {t t' : τ} (h : Compiled env files name t)
    (h' : Compiled env files name t') : t = t' := by
  rw [compiled_iff] at h h'
  exact Option.some.inj (h.symm.trans h')

theorem common_eq {τ : Type} (env : WebEnv τ) (n : RouteName) (r : WebRequest) : common env n r = commonOf env n r := by
  unfold common commonOf
  cases env.agg <;> rfl

theorem parseSets_good {τ : Type} (env : WebEnv τ) {files : TemplateFiles} (hg : GoodFiles env files) :
    ∃ m, parseSets env.compile files templateSets [] = (m, true) ∧
      ∀ n ∈ [b!"root.html", b!"trace.html", b!"traces.html", b!"dashboard.html", b!"aggregate.html"],
        AMap.get m n = compileSet env.compile files [n, b!"layout.html"] := by
  obtain ⟨t1, h1⟩ := hg b!"root.html" (by simp)
  obtain ⟨t2, h2⟩ := hg b!"trace.html" (by simp)
  obtain ⟨t3, h3⟩ := hg b!"traces.html" (by simp)
  obtain ⟨t4, h4⟩ := hg b!"dashboard.html" (by simp)
  obtain ⟨t5, h5⟩ := hg b!"aggregate.html" (by simp)
  rw [compiled_iff] at h1 h2 h3 h4 h5
  refine ⟨_, by simp only [templateSets, parseSets, h1, h2, h3, h4, h5]; rfl, ?_⟩
  intro n hn
  simp only [List.mem_cons, List.not_mem_nil, or_false] at hn
  rcases hn with rfl | rfl | rfl | rfl | rfl
  · rw [h1]; rfl
  · rw [h2]; rfl
  · rw [h3]; rfl
  · rw [h4]; rfl
  · rw [h5]; rfl

theorem renderTemplate_is {τ : Type} (env : WebEnv τ) (files : TemplateFiles) (tmpls : Option (AMap Bytes τ)) (c : PageCommon)
    (name : Bytes) (data : PageData) :
    (∃ msg, PageIs (renderTemplate env files tmpls c name data).2 (.failed msg)) ∨
      ∃ t html, env.execute t c data = some html ∧ PageIs (renderTemplate env files tmpls c name data).2 (.html html) := by
  unfold renderTemplate
  rcases currentTemplates env files tmpls with ⟨m, ok⟩
  dsimp only
  split
  · exact Or.inl ⟨_, .failed⟩
  · split
    · exact Or.inl ⟨_, .failed⟩
    · split
      · exact Or.inl ⟨_, .failed⟩
      · rename_i html he
        exact Or.inr ⟨_, html, he, .html⟩

/-- With good files and nothing cached, the page is what executing the template gives. -/
theorem renderTemplate_good {τ : Type} (env : WebEnv τ) {files : TemplateFiles} (hg : GoodFiles env files)
    {tmpls : Option (AMap Bytes τ)} (ht : tmpls = none ∨ env.reload = true) (c : PageCommon) {name : Bytes}
    (hn : name ∈ [b!"root.html", b!"trace.html", b!"traces.html", b!"dashboard.html", b!"aggregate.html"]) (data : PageData)
    {t : τ} (hc : Compiled env files name t) :
    PageIs (renderTemplate env files tmpls c name data).2
      (match env.execute t c data with
      | some html => .html html
      | none => .failed (env.errText .execute)) := by
  obtain ⟨m, hm, hget⟩ := parseSets_good env hg
  have hsel : currentTemplates env files tmpls = (m, true) := by
    rcases ht with rfl | hr
    · exact hm
    · cases tmpls
      · exact hm
      · simp only [currentTemplates, hr, if_true]; exact hm
  unfold renderTemplate
  rw [hsel]
  dsimp only
  rw [hget name hn, compiled_iff.1 hc]
  rw [if_neg (by decide)]
  dsimp only
  cases he : env.execute t c data with
  | none => exact .failed
  | some html => exact .html

/-! ## Handlers -/

theorem renderWith_snd {τ : Type} (env : WebEnv τ) (files : TemplateFiles) (st : WebState τ) (n : RouteName) (r : WebRequest)
    (name : Bytes) (data : PageData) :
    (renderWith env files st n r name data).2 = (renderTemplate env files st.tmpls (commonOf env n r) name data).2 := rfl

theorem renderWith_good {τ : Type} (env : WebEnv τ) {files : TemplateFiles} (hg : GoodFiles env files) {st : WebState τ}
    (hst : st.tmpls = none ∨ env.reload = true) (n : RouteName) (r : WebRequest) {name : Bytes}
    (hn : name ∈ [b!"root.html", b!"trace.html", b!"traces.html", b!"dashboard.html", b!"aggregate.html"]) (data : PageData)
    {t : τ} (hc : Compiled env files name t) :
    PageIs (renderWith env files st n r name data).2
      (match env.execute t (common env n r) data with
      | some html => .html html
      | none => .failed (env.errText .execute)) := by
  rw [renderWith_snd, common_eq]
  exact renderTemplate_good env hg hst (commonOf env n r) hn data hc

theorem renderWith_store {τ : Type} (env : WebEnv τ) (files : TemplateFiles) (st : WebState τ) (n : RouteName) (r : WebRequest)
    (name : Bytes) (data : PageData) : (renderWith env files st n r name data).1.store = st.store := rfl

theorem renderWith_is {τ : Type} (env : WebEnv τ) (files : TemplateFiles) (st : WebState τ) (n : RouteName) (r : WebRequest)
    (name : Bytes) (data : PageData) : ∃ a, PageIs (renderWith env files st n r name data).2 a := by
  rw [renderWith_snd]
  rcases renderTemplate_is env files st.tmpls (commonOf env n r) name data with ⟨msg, h⟩ | ⟨t, html, -, h⟩
  · exact ⟨_, h⟩
  · exact ⟨_, h⟩

theorem tracePageOf_is {τ : Type} (env : WebEnv τ) (files : TemplateFiles) (st : WebState τ) (n : RouteName) (r : WebRequest)
    (vars : Vars) : ∃ a, PageIs (tracePageOf env files st n r vars).2 a := by
  unfold tracePageOf
  dsimp only
  split
  · exact ⟨_, .panicked⟩
  · exact ⟨_, .failed⟩
  · exact ⟨_, .data⟩
  · exact renderWith_is ..

theorem handleRoute_is {τ : Type} (env : WebEnv τ) (files : TemplateFiles) (st : WebState τ) (n : RouteName) (r : WebRequest)
    (vars : Vars) : ∃ a, PageIs (handleRoute env files st n r vars).2 a := by
  cases n <;> simp only [handleRoute]
  case root => exact renderWith_is ..
  case static => exact ⟨_, .stored⟩
  case trace => exact tracePageOf_is ..
  case traceSpan => exact tracePageOf_is ..
  case traceProfile => exact tracePageOf_is ..
  case traceSpanProfile => exact tracePageOf_is ..
  case traceUpload =>
    split
    · exact ⟨_, .stored⟩
    · exact ⟨_, .failed⟩
    · exact ⟨_, .panicked⟩
  case traces =>
    split
    · exact ⟨_, .panicked⟩
    · exact renderWith_is ..
  case dashboard =>
    split
    · exact ⟨_, .disabled⟩
    · exact renderWith_is ..
  case dashboardData =>
    split
    · exact ⟨_, .disabled⟩
    · exact ⟨_, .failed⟩
    · exact ⟨_, .data⟩
  case aggregate =>
    split
    · exact ⟨_, .panicked⟩
    · split
      · exact ⟨_, .panicked⟩
      · exact ⟨_, .failed⟩
      · exact renderWith_is ..

theorem pageServes_total (p : Page) (pt : Bytes) (w : WebWriter) : ∃ out, PageServes p pt w out := by
  unfold PageServes
  split
  · exact ⟨_, rfl⟩
  · exact ⟨_, rfl⟩
  · rcases h : p.buffer.writeTo (p.buffer.header.getD []) w with ⟨w', b⟩
    cases b
    · exact ⟨_, _, List.Perm.refl _, by rw [h]⟩
    · exact ⟨_, _, List.Perm.refl _, by rw [h]⟩

theorem tracePageOf_store {τ : Type} (env : WebEnv τ) (files : TemplateFiles) (st : WebState τ) (n : RouteName) (r : WebRequest)
    (vars : Vars) : (tracePageOf env files st n r vars).1.store =
      (serveTraceRequest env.view env.flate env.nils st.store r.path r.query vars).1 := by
  unfold tracePageOf
  dsimp only
  split <;> rfl

/-- The store after a request. -/
theorem handleRoute_store {τ : Type} (env : WebEnv τ) (files : TemplateFiles) (st : WebState τ) (n : RouteName) (r : WebRequest)
    (vars : Vars) : (handleRoute env files st n r vars).1.store =
      (if n = .traceUpload then (serveUploadBody st.store r.body).1
      else if servedByTrace n then (serveTraceRequest env.view env.flate env.nils st.store r.path r.query vars).1 else st.store) := by
  cases n <;> simp only [handleRoute, servedByTrace]
  case root => rfl
  case static => rfl
  case trace => exact tracePageOf_store ..
  case traceSpan => exact tracePageOf_store ..
  case traceProfile => exact tracePageOf_store ..
  case traceSpanProfile => exact tracePageOf_store ..
  case traceUpload => rcases serveUploadBody st.store r.body with ⟨ms, _ | _ | _⟩ <;> rfl
  case traces => split <;> rfl
  case dashboard => split <;> rfl
  case dashboardData => split <;> rfl
  case aggregate =>
    split
    · rfl
    · split <;> rfl

theorem renderWith_not {τ : Type} {env : WebEnv τ} {files : TemplateFiles} {st : WebState τ} {n : RouteName} {r : WebRequest}
    {name : Bytes} {data : PageData} {a : Answer} (h : PageIs (renderWith env files st n r name data).2 a) :
    a ≠ .disabled ∧ a ≠ .stored := by
  rw [renderWith_snd] at h
  unfold renderTemplate at h
  rcases currentTemplates env files st.tmpls with ⟨m, ok⟩
  dsimp only at h
  split at h
  · cases h; simp
  · split at h
    · cases h; simp
    · split at h
      · cases h; simp
      · cases h; simp

theorem tracePageOf_not {τ : Type} {env : WebEnv τ} {files : TemplateFiles} {st : WebState τ} {n : RouteName} {r : WebRequest}
    {vars : Vars} {a : Answer} (h : PageIs (tracePageOf env files st n r vars).2 a) : a ≠ .disabled ∧ a ≠ .stored := by
  unfold tracePageOf at h
  dsimp only at h
  split at h
  · cases h; simp
  · cases h; simp
  · cases h; simp
  · exact renderWith_not h

theorem handleRoute_disabled {τ : Type} {env : WebEnv τ} {files : TemplateFiles} {st : WebState τ} {n : RouteName} {r : WebRequest}
    {vars : Vars} (h : PageIs (handleRoute env files st n r vars).2 .disabled) : env.agg = none := by
  cases n <;> simp only [handleRoute] at h
  case root => exact absurd rfl (renderWith_not h).1
  case static => cases h
  case trace => exact absurd rfl (tracePageOf_not h).1
  case traceSpan => exact absurd rfl (tracePageOf_not h).1
  case traceProfile => exact absurd rfl (tracePageOf_not h).1
  case traceSpanProfile => exact absurd rfl (tracePageOf_not h).1
  case traceUpload => split at h <;> cases h
  case traces =>
    split at h
    · cases h
    · exact absurd rfl (renderWith_not h).1
  case dashboard =>
    split at h
    · assumption
    · exact absurd rfl (renderWith_not h).1
  case dashboardData =>
    cases hagg : env.agg with
    | none => rfl
    | some agg =>
      rw [hagg] at h
      split at h
      · rename_i hdis
        unfold serveDashboardData at hdis
        dsimp only at hdis
        split at hdis
        · split at hdis <;> cases hdis
        · cases hdis
      · cases h
      · cases h
  case aggregate =>
    split at h
    · cases h
    · split at h
      · cases h
      · cases h
      · exact absurd rfl (renderWith_not h).1

theorem handleRoute_stored {τ : Type} {env : WebEnv τ} {files : TemplateFiles} {st : WebState τ} {n : RouteName} {r : WebRequest}
    {vars : Vars} (h : PageIs (handleRoute env files st n r vars).2 .stored) (hn : n ≠ .static) : n = .traceUpload := by
  cases n <;> simp only [handleRoute] at h
  case root => exact absurd rfl (renderWith_not h).2
  case static => exact absurd rfl hn
  case trace => exact absurd rfl (tracePageOf_not h).2
  case traceSpan => exact absurd rfl (tracePageOf_not h).2
  case traceProfile => exact absurd rfl (tracePageOf_not h).2
  case traceSpanProfile => exact absurd rfl (tracePageOf_not h).2
  case traceUpload => rfl
  case traces =>
    split at h
    · cases h
    · exact absurd rfl (renderWith_not h).2
  case dashboard =>
    split at h
    · cases h
    · exact absurd rfl (renderWith_not h).2
  case dashboardData => split at h <;> cases h
  case aggregate =>
    split at h
    · cases h
    · split at h
      · cases h
      · cases h
      · exact absurd rfl (renderWith_not h).2

theorem parseSets_bad {τ : Type} (compile : List Bytes → Option τ) (files : TemplateFiles) (sets : List (List Bytes)) (m : AMap Bytes τ)
    (h : (parseSets compile files sets m).2 = true) : ∀ set ∈ sets, ∃ t, compileSet compile files set = some t := by
  induction sets generalizing m with
  | nil => simp
  | cons set sets ih =>
    simp only [parseSets] at h
    cases hc : compileSet compile files set with
    | none => rw [hc] at h; cases h
    | some t =>
      rw [hc] at h
      intro x hx
      rcases List.mem_cons.1 hx with rfl | hx
      · exact ⟨t, hc⟩
      · exact ih _ h x hx

theorem renderWith_bad {τ : Type} {env : WebEnv τ} {files : TemplateFiles} {st : WebState τ} {n : RouteName} {r : WebRequest}
    {name : Bytes} {data : PageData} (hb : (currentTemplates env files st.tmpls).2 = false) :
    PageIs (renderWith env files st n r name data).2 (.failed (env.errText .templates)) := by
  rw [renderWith_snd]
  unfold renderTemplate
  revert hb
  rcases currentTemplates env files st.tmpls with ⟨m, ok⟩
  rintro rfl
  exact .failed

theorem PageIs.unique_failed {p : Page} {a : Answer} {msg : Bytes} (h1 : PageIs p (.failed msg)) (h2 : PageIs p a) : ∃ msg', a = .failed msg' := by
  cases h1 <;> cases h2 <;> exact ⟨_, rfl⟩

theorem handleRoute_bad {τ : Type} {env : WebEnv τ} {files : TemplateFiles} {st : WebState τ} {n : RouteName} {r : WebRequest}
    {vars : Vars} {html : Bytes} (hb : (currentTemplates env files st.tmpls).2 = false) :
    ¬ PageIs (handleRoute env files st n r vars).2 (.html html) := by
  have hr : ∀ {name : Bytes} {data : PageData} {st0 : WebState τ}, st0.tmpls = st.tmpls →
      ¬ PageIs (renderWith env files st0 n r name data).2 (.html html) := by
    intro name data st0 e h
    obtain ⟨_, h⟩ := (renderWith_bad (by rw [e]; exact hb)).unique_failed h
    cases h
  have ht : ¬ PageIs (tracePageOf env files st n r vars).2 (.html html) := by
    intro h
    unfold tracePageOf at h
    dsimp only at h
    split at h
    · cases h
    · cases h
    · cases h
    · exact hr rfl h
  intro h
  cases n <;> simp only [handleRoute] at h
  case root => exact hr rfl h
  case static => cases h
  case trace => exact ht h
  case traceSpan => exact ht h
  case traceProfile => exact ht h
  case traceSpanProfile => exact ht h
  case traceUpload => split at h <;> cases h
  case traces =>
    split at h
    · cases h
    · exact hr rfl h
  case dashboard =>
    split at h
    · cases h
    · exact hr rfl h
  case dashboardData => split at h <;> cases h
  case aggregate =>
    split at h
    · cases h
    · split at h
      · cases h
      · cases h
      · exact hr rfl h

theorem response_html {a : Answer} {b : Bytes} (h : a.response = (Answer.html b).response) : a = .html b := by
  have hst := congrArg (fun x : Int × Header × Bytes => x.1) h
  have hct := congrArg (fun x : Int × Header × Bytes => x.2.1.find b!"Content-Type") h
  have hbody := congrArg (fun x : Int × Header × Bytes => x.2.2) h
  have hw : ∀ (body : Bytes) (h : Header), (withLength body h).find b!"Content-Type" = h.find b!"Content-Type" := by
    intro body h
    unfold withLength
    split
    · rfl
    · simp only [Header.find, Header.put]
      rw [AMap.get_set_ne]
      decide
  cases a with
  | html b' => simp only [Answer.response] at hbody; rw [hbody]
  | data b' =>
    simp only [Answer.response, hw] at hct
    exact absurd hct (by decide)
  | stored =>
    simp only [Answer.response, hw] at hct
    exact absurd hct (by decide)
  | redirect u => exact absurd hst (by simp [Answer.response])
  | notFound => exact absurd hst (by simp [Answer.response])
  | disabled => exact absurd hst (by simp [Answer.response])
  | failed m => exact absurd hst (by simp [Answer.response, errorResponse])

/-! ## Paths -/

theorem text_of_split (ps : List Bytes) : ∀ s : Bytes, splitOn 47 s = ps → 47 :: s = (ps.map fun p => 47 :: p).flatten := by
  induction ps with
  | nil => intro s h; exact absurd h (splitOn_ne_nil _ _)
  | cons p ps ih =>
    intro s h
    obtain ⟨_, ⟨h1, h2⟩ | ⟨s', h1, h2⟩⟩ := splitOn_cons _ _ _ _ h
    · subst h1 h2; simp
    · rw [h1]
      have := ih s' h2
      simp only [List.map_cons, List.flatten_cons, ← this, List.cons_append]

theorem path_of_parts {p : Bytes} {ps : List Bytes} (h : pathParts p = some ps) : p = (ps.map fun p => 47 :: p).flatten := by
  cases p with
  | nil => cases h
  | cons c s =>
    simp only [pathParts] at h
    split at h
    · rename_i hc
      subst hc
      injection h with h
      exact text_of_split ps s h
    · cases h

theorem findRoute_method {m : Method} {p : Bytes} {n : RouteName} {vars : Vars} : ∀ {rs : List Route}, findRoute m p rs = .to n vars →
    ∃ r ∈ rs, r.name = n ∧ r.method = m ∧ r.pattern.matches p = some vars
  | [], h => by cases h
  | r :: rs, h => by
    unfold findRoute at h
    split at h
    · obtain ⟨r', h1, h2⟩ := findRoute_method h
      exact ⟨r', List.mem_cons_of_mem _ h1, h2⟩
    · rename_i v hv
      split at h
      · rename_i hm
        injection h with h1 h2
        exact ⟨r, List.mem_cons_self, h1, hm.symm, by rw [hv, h2]⟩
      · obtain ⟨r', h1, h2⟩ := findRoute_method h
        exact ⟨r', List.mem_cons_of_mem _ h1, h2⟩

theorem dispatch_method {p : Bytes} {n : RouteName} {vars : Vars} {m : Method} (h : dispatch m p = .to n vars) :
    ∃ r ∈ routes, r.name = n ∧ r.method = m ∧ r.pattern.matches p = some vars := by
  unfold dispatch at h
  split at h
  · cases h
  · split at h
    · exact findRoute_method h
    · cases h

theorem dispatch_upload {m : Method} {p : Bytes} {vars : Vars} (h : dispatch m p = .to .traceUpload vars) :
    m = .post ∧ p = b!"/traces/upload" := by
  obtain ⟨r, hr, hn, hm, hp⟩ := dispatch_method h
  simp only [routes, List.mem_cons, List.not_mem_nil, or_false] at hr
  rcases hr with e | e | e | e | e | e | e | e | e | e | e <;> subst e <;> simp at hn
  refine ⟨hm.symm, ?_⟩
  simp only [Pattern.matches] at hp
  split at hp
  · cases hp
  rename_i ps hps
  have : ps = [b!"traces", b!"upload"] := by
    match ps, hp with
    | [], hp => cases hp
    | [a], hp => simp only [matchSegs] at hp; split at hp <;> cases hp
    | [a, b], hp =>
      simp only [matchSegs] at hp
      split at hp
      · rename_i ha
        split at hp
        · rename_i hb
          rw [ha, hb]
        · cases hp
      · cases hp
    | a :: b :: c :: ps, hp =>
      simp only [matchSegs] at hp
      split at hp
      · split at hp <;> cases hp
      · cases hp
  rw [path_of_parts hps, this]
  rfl

theorem dispatch_traceRoute {m : Method} {p : Bytes} {n : RouteName} {vars : Vars} (h : dispatch m p = .to n vars)
    (hs : servedByTrace n = true) : m = .get ∧ (b!"/traces/" : Bytes) <+: p := by
  obtain ⟨r, hr, hn, hm, hp⟩ := dispatch_method h
  subst hn
  have key : ∃ segs, r.method = .get ∧ r.pattern = .path (.lit b!"traces" :: .var b!"Trace" :: segs) := by
    simp only [routes, List.mem_cons, List.not_mem_nil, or_false] at hr
    rcases hr with e | e | e | e | e | e | e | e | e | e | e <;> subst e <;>
      first | exact ⟨_, rfl, rfl⟩ | exact absurd hs (by decide)
  obtain ⟨segs, h1, h2⟩ := key
  refine ⟨hm.symm.trans h1, ?_⟩
  rw [h2] at hp
  simp only [Pattern.matches] at hp
  split at hp
  · cases hp
  rename_i ps hps
  match ps, hp with
  | [], hp => cases hp
  | [a], hp => simp only [matchSegs] at hp; split at hp <;> cases hp
  | a :: b :: ps, hp =>
    simp only [matchSegs] at hp
    split at hp
    · rename_i ha
      rw [path_of_parts hps, ha]
      exact ⟨b ++ (ps.map fun p => 47 :: p).flatten, by simp⟩
    · cases hp

/-! ## What was served before -/

theorem renderTemplate_congr {τ : Type} (env : WebEnv τ) (files : TemplateFiles) {t1 t2 : Option (AMap Bytes τ)}
    (h : currentTemplates env files t1 = currentTemplates env files t2) (c : PageCommon) (name : Bytes) (data : PageData) :
    renderTemplate env files t1 c name data = renderTemplate env files t2 c name data := by
  simp only [renderTemplate, h]

theorem handleRoute_congr {τ : Type} (env : WebEnv τ) (files : TemplateFiles) (ms : MemStore) {t1 t2 : Option (AMap Bytes τ)}
    (h : currentTemplates env files t1 = currentTemplates env files t2) (n : RouteName) (r : WebRequest) (vars : Vars) :
    (handleRoute env files ⟨ms, t1⟩ n r vars).2 = (handleRoute env files ⟨ms, t2⟩ n r vars).2 := by
  have hw : ∀ (ms : MemStore) n name data, (renderWith env files ⟨ms, t1⟩ n r name data).2 =
      (renderWith env files ⟨ms, t2⟩ n r name data).2 := by
    intro ms n name data
    rw [renderWith_snd, renderWith_snd, renderTemplate_congr env files h]
  have ht : ∀ n, (tracePageOf env files ⟨ms, t1⟩ n r vars).2 = (tracePageOf env files ⟨ms, t2⟩ n r vars).2 := by
    intro n
    simp only [tracePageOf]
    split
    · rfl
    · rfl
    · rfl
    · exact hw ..
  cases n <;> simp only [handleRoute]
  case root => exact hw ..
  case trace => exact ht _
  case traceSpan => exact ht _
  case traceProfile => exact ht _
  case traceSpanProfile => exact ht _
  case traceUpload => rcases serveUploadBody ms r.body with ⟨_, _ | _ | _⟩ <;> rfl
  case traces =>
    split
    · rfl
    · exact hw ..
  case dashboard =>
    split
    · rfl
    · exact hw ..
  case dashboardData => split <;> rfl
  case aggregate =>
    split
    · rfl
    · split
      · rfl
      · rfl
      · exact hw ..

theorem renderWith_tmpls {τ : Type} (env : WebEnv τ) (files : TemplateFiles) (st : WebState τ) (n : RouteName) (r : WebRequest)
    (name : Bytes) (data : PageData) :
    (renderWith env files st n r name data).1.tmpls = some (currentTemplates env files st.tmpls).1 := by
  simp only [renderWith, renderTemplate]
  split
  · rfl
  · split
    · rfl
    · split <;> rfl

theorem handleRoute_tmpls {τ : Type} (env : WebEnv τ) (files : TemplateFiles) (st : WebState τ) (n : RouteName) (r : WebRequest)
    (vars : Vars) : (handleRoute env files st n r vars).1.tmpls = st.tmpls ∨
      (handleRoute env files st n r vars).1.tmpls = some (currentTemplates env files st.tmpls).1 := by
  have ht : ∀ n, (tracePageOf env files st n r vars).1.tmpls = st.tmpls ∨
      (tracePageOf env files st n r vars).1.tmpls = some (currentTemplates env files st.tmpls).1 := by
    intro n
    simp only [tracePageOf]
    split
    · exact Or.inl rfl
    · exact Or.inl rfl
    · exact Or.inl rfl
    · exact Or.inr (renderWith_tmpls env files ⟨_, st.tmpls⟩ ..)
  cases n <;> simp only [handleRoute]
  case root => exact Or.inr (renderWith_tmpls ..)
  case static => exact Or.inl trivial
  case trace => exact ht _
  case traceSpan => exact ht _
  case traceProfile => exact ht _
  case traceSpanProfile => exact ht _
  case traceUpload => rcases serveUploadBody st.store r.body with ⟨_, _ | _ | _⟩ <;> exact Or.inl rfl
  case traces =>
    split
    · exact Or.inl rfl
    · exact Or.inr (renderWith_tmpls ..)
  case dashboard =>
    split
    · exact Or.inl rfl
    · exact Or.inr (renderWith_tmpls ..)
  case dashboardData => split <;> exact Or.inl rfl
  case aggregate =>
    split
    · exact Or.inl rfl
    · split
      · exact Or.inl rfl
      · exact Or.inl rfl
      · exact Or.inr (renderWith_tmpls ..)

theorem appServes_tmpls {τ : Type} {env : WebEnv τ} {files : TemplateFiles} {st st' : WebState τ} {r : WebRequest} {h : Header}
    {out : Option WebWriter} (hs : AppServes env files st r h st' out) :
    st'.tmpls = st.tmpls ∨ st'.tmpls = some (currentTemplates env files st.tmpls).1 := by
  unfold AppServes at hs
  split at hs
  · rw [hs.1]; exact Or.inl rfl
  · rw [hs.1]; exact Or.inl rfl
  · split at hs
    · rw [hs.1]; exact Or.inl rfl
    · rw [hs.1]; exact handleRoute_tmpls ..

/-- With the same good files at all times the cached templates are those of the files. -/
theorem webRuns_same {τ : Type} {env : WebEnv τ} {files : TemplateFiles} {m : AMap Bytes τ}
    (hm : parseSets env.compile files templateSets [] = (m, true)) {st st' : WebState τ} {l : List (TemplateFiles × WebRequest)}
    (hr : WebRuns env st l st') (h0 : st.tmpls = none) (hl : ∀ x ∈ l, x.1 = files) : st'.tmpls = none ∨ st'.tmpls = some m := by
  induction hr with
  | nil => exact Or.inl h0
  | @snoc st' st'' l f r h out _ hs ih =>
    have e : f = files := hl (f, r) (by simp)
    subst e
    rcases ih (fun x hx => hl x (by simp [hx])) with e | e
    · rcases appServes_tmpls hs with g | g
      · exact Or.inl (g.trans e)
      · right; rw [g, e]; simp only [currentTemplates, hm]
    · right
      rcases appServes_tmpls hs with g | g
      · exact g.trans e
      · rw [g, e]; simp only [currentTemplates]; split
        · rw [hm]
        · rfl

end Appdash
