import Verif.Proofs.BaseURL

/-!
# C113, C114: base URLs
-/

namespace Appdash

open Spec

/-- **C113** (the option).  If a URL is given, it is used. -/
theorem given_url_used (parse : Bytes → Option BaseURL) {url : Bytes} (h : url ≠ []) (addr : Bytes) : urlOrDefault parse url addr = parse url := by
  unfold urlOrDefault
  cases parse url with
  | none => rfl
  | some u => simp [h]

/-- **C113** (exactly when).  Without the option `-url`, the command starts for every well-formed address, and the base URL leads to the server
if and only if it does not use TLS and its host is not an IPv6 address. -/
theorem default_url_leads_iff_partial (parse : Bytes → Option BaseURL) (hparse : ∃ u, parse [] = some u) (tls : Bool) {host port : Bytes}
    (h : GoodAddress host port) :
    ∃ u b, urlOrDefault parse [] (address host port) = some u ∧ appBaseURL u = some b ∧ b.path = b!"/" ∧
      (LeadsTo b tls host port ↔ tls = false ∧ 58 ∉ host) := by
  obtain ⟨u, hu⟩ := hparse
  have e : urlOrDefault parse [] (address host port) =
      some { scheme := b!"http", host := (if host = [] then b!"localhost" else host) ++ b!":" ++ port, path := [] } := by
    simp [urlOrDefault, hu, splitHostPort_address h]
  refine ⟨_, { scheme := b!"http", host := (if host = [] then b!"localhost" else host) ++ b!":" ++ port, path := b!"/" }, e, ?_, rfl, ?_⟩
  · simp [appBaseURL]
  unfold LeadsTo
  constructor
  · rintro ⟨h1, h2⟩
    constructor
    · cases tls with
      | false => rfl
      | true => simp at h1
    · intro hc
      have hne : host ≠ [] := by rintro rfl; cases hc
      simp only [hne, if_false, address, hc, if_true] at h2
      have := congrArg List.length h2
      simp at this
      omega
  · rintro ⟨rfl, hc⟩
    refine ⟨rfl, ?_⟩
    show (if host = [] then b!"localhost" else host) ++ b!":" ++ port = _
    split
    · rfl
    · simp [address, hc]

/-- **C113**.  The base URL does not always lead to the server: not for `-http=[::1]:7700`, and never with TLS. -/
theorem default_url_misleads : ¬ DefaultURLLeadsToServer := by
  intro hf
  obtain ⟨u, b, h1, h2, h3⟩ := hf (fun _ => some ⟨[], [], []⟩) false b!"::1" b!"7700" (by unfold GoodAddress; decide) ⟨_, rfl⟩
  obtain ⟨u', b', h1', h2', _, h3'⟩ :=
    default_url_leads_iff_partial (fun _ => some ⟨[], [], []⟩) ⟨_, rfl⟩ false (host := b!"::1") (port := b!"7700") (by unfold GoodAddress; decide)
  rw [h1] at h1'
  cases h1'
  rw [h2] at h2'
  cases h2'
  exact absurd (h3'.1 h3).2 (by decide)

/-- An address without a port is refused. -/
theorem address_without_port (parse : Bytes → Option BaseURL) {addr : Bytes} (h : 58 ∉ addr) : urlOrDefault parse [] addr = none := by
  have : splitHostPort addr = none := by
    have : ∀ b : Bytes, 58 ∉ b → splitLast 58 b = none := by
      intro b
      induction b with
      | nil => intro _; rfl
      | cons x b ih =>
        intro h
        simp only [List.mem_cons, not_or] at h
        rw [splitLast, ih h.2]
        simp [Ne.symm h.1]
    rw [splitHostPort, this addr h]
  unfold urlOrDefault
  rw [this]
  cases parse [] <;> simp

/-- **C113** (which addresses are accepted).  Without the option `-url`, the command starts if and only if the address is written as a host
and a port; a host with colons needs brackets. -/
theorem address_accepted_iff (parse : Bytes → Option BaseURL) (hparse : ∃ u, parse [] = some u) (addr : Bytes) :
    (∃ u, urlOrDefault parse [] addr = some u) ↔
      ∃ host port, GoodAddress host port ∧ (addr = b!"[" ++ host ++ b!"]:" ++ port ∨ 58 ∉ host ∧ addr = host ++ b!":" ++ port) := by
  obtain ⟨u, hu⟩ := hparse
  constructor
  · rintro ⟨b, hb⟩
    cases hs : splitHostPort addr with
    | none => simp [urlOrDefault, hu, hs] at hb
    | some p => exact ⟨p.1, p.2, splitHostPort_some hs⟩
  · rintro ⟨host, port, hg, h⟩
    have : splitHostPort addr = some (host, port) := by
      rcases h with rfl | ⟨hc, rfl⟩
      · exact splitHostPort_brackets hg
      · have := splitHostPort_address hg
        rwa [address, if_neg hc] at this
    simp [urlOrDefault, hu, this]

/-- The default address, and an address with a host. -/
example : (urlOrDefault (fun _ => some ⟨[], [], []⟩) [] b!":7700").bind appBaseURL = some ⟨b!"http", b!"localhost:7700", b!"/"⟩ := by decide
example : (urlOrDefault (fun _ => some ⟨[], [], []⟩) [] b!"10.0.0.1:80").map BaseURL.text = some b!"http://10.0.0.1:80" := by decide
/-- The brackets are lost. -/
example : (urlOrDefault (fun _ => some ⟨[], [], []⟩) [] b!"[::1]:7700").map BaseURL.text = some b!"http://::1:7700" := by decide
example : splitHostPort b!"::1:7700" = none := by decide

/-! ## C114 -/

/-- **C114** (scripts and styles).  They can be loaded if and only if the router given to `New` is not a subrouter for a path, and the path of
the base URL is what the proxy removes, with a slash at the end. -/
theorem static_works_iff_partial (d : Deployment) {b : BaseURL} (hs : 58 ∉ b.scheme) (hh : 47 ∉ b.host) (hp : b.path.head? = some 47) :
    StaticWorks d b ↔ d.mount = [] ∧ b.path = d.proxy ++ b!"/" := by
  constructor
  · intro h
    have h := h b!"x" (by decide)
    rw [staticRef, List.append_assoc, requestPath_text hs hh hp, Deployment.receives] at h
    split at h
    rotate_left
    · cases h
    rename_i hpre
    obtain ⟨q, hq⟩ := List.isPrefixOf_iff_prefix.1 hpre
    rw [← hq, List.drop_left] at h
    replace h : staticFile d.mount q = some b!"x" := h
    unfold staticFile at h
    split at h
    rotate_left
    · cases h
    rename_i vars hm
    split at h
    rotate_left
    · cases h
    rename_i hq8
    obtain ⟨r, hr⟩ := List.isPrefixOf_iff_prefix.1 hq8
    have hqe : q = b!"/static/x" := by
      subst hr
      injection h with h
      have : r = b!"x" := h
      rw [this]; rfl
    subst hqe
    constructor
    · unfold mountedDispatch at hm
      split at hm
      rotate_left
      · cases hm
      have hd := dispatch_to_static hm
      rcases hl : d.mount.length with _ | _ | n
      · exact List.length_eq_zero_iff.1 hl
      · rw [hl] at hd; exact absurd hd (by decide)
      · rw [hl] at hd
        have := hd.length_le
        simp at this
        omega
    · have e : b.path ++ b!"static/x" = (d.proxy ++ b!"/") ++ b!"static/x" := by
        rw [List.append_assoc]; exact hq.symm
      exact List.append_cancel_right e
  · rintro ⟨hm, hb⟩ name hn
    rw [staticRef, List.append_assoc, requestPath_text hs hh hp, hb, Deployment.receives]
    have hpre : d.proxy.isPrefixOf (d.proxy ++ b!"/" ++ (b!"static/" ++ name)) = true :=
      List.isPrefixOf_iff_prefix.2 ⟨b!"/" ++ (b!"static/" ++ name), by simp⟩
    rw [if_pos hpre, List.append_assoc, List.drop_left]
    show staticFile d.mount (b!"/static/" ++ name) = some name
    unfold staticFile mountedDispatch
    rw [hm]
    simp only [List.isPrefixOf, if_true, List.length_nil, List.drop_zero, dispatch_static hn]
    rfl

/-- **C114** (links).  They lead to the traces if and only if no proxy removes a part of paths. -/
theorem links_work_iff_partial (d : Deployment) : LinksWork d ↔ d.proxy = [] := by
  constructor
  · intro h
    have h := h 0
    unfold Deployment.receives at h
    split at h
    rotate_left
    · cases h
    rename_i hpre
    obtain ⟨q, hq⟩ := List.isPrefixOf_iff_prefix.1 hpre
    rw [← hq, List.drop_left, Option.map_some] at h
    injection h with h
    unfold mountedDispatch at h
    split at h
    rotate_left
    · cases h
    rename_i hm
    obtain ⟨r, hr⟩ := List.isPrefixOf_iff_prefix.1 hm
    rw [← hr, List.drop_left] at h
    have he := dispatch_to_trace h
    have hl := congrArg List.length hq
    rw [traceRef, urlToTrace_eq, ← hr, he] at hl
    simp at hl
    exact hl
  · intro h t
    unfold Deployment.receives
    rw [h]
    simp only [List.isPrefixOf, if_true, List.length_nil, List.drop_zero, Option.map_some, traceRef, mountedDispatch]
    rw [if_pos (List.isPrefixOf_iff_prefix.2 ⟨urlToTrace t, rfl⟩), List.drop_left, dispatch_trace]

/-- **C114** (import).  "Import JSON" works if and only if the application is at the root of its host, whatever base URL it was given. -/
theorem import_works_iff_partial (d : Deployment) : ImportWorks d ↔ d.proxy = [] ∧ d.mount = [] := by
  constructor
  · intro h
    unfold ImportWorks Deployment.receives at h
    split at h
    rotate_left
    · cases h
    rename_i hpre
    obtain ⟨q, hq⟩ := List.isPrefixOf_iff_prefix.1 hpre
    rw [← hq, List.drop_left, Option.map_some] at h
    injection h with h
    unfold mountedPost at h
    split at h
    rotate_left
    · cases h
    rename_i hm
    obtain ⟨r, hr⟩ := List.isPrefixOf_iff_prefix.1 hm
    rw [← hr, List.drop_left] at h
    rw [← hr, ← List.append_assoc] at hq
    have hlen : (d.proxy ++ d.mount).length ≤ 14 := by
      have := congrArg List.length hq
      rw [List.length_append, show importRef.length = 14 from rfl] at this
      omega
    have hdrop : r = importRef.drop (d.proxy ++ d.mount).length := by rw [← hq, List.drop_left]
    have key : ∀ n, n ≤ 14 → dispatch .post (importRef.drop n) = .to .traceUpload [] → n = 0 := by decide
    rw [hdrop] at h
    have := key _ hlen h
    rw [List.length_append] at this
    exact ⟨List.length_eq_zero_iff.1 (by omega), List.length_eq_zero_iff.1 (by omega)⟩
  · rintro ⟨h1, h2⟩
    unfold ImportWorks Deployment.receives mountedPost
    rw [h1, h2]
    decide

/-- **C114** (together).  Both work only for an application at the root of its host. -/
theorem pages_work_iff_partial (d : Deployment) {b : BaseURL} (hs : 58 ∉ b.scheme) (hh : 47 ∉ b.host) (hp : b.path.head? = some 47) :
    StaticWorks d b ∧ LinksWork d ↔ d.mount = [] ∧ d.proxy = [] ∧ b.path = b!"/" := by
  rw [static_works_iff_partial d hs hh hp, links_work_iff_partial]
  constructor
  · rintro ⟨⟨h1, h2⟩, h3⟩
    rw [h3] at h2
    exact ⟨h1, h3, h2⟩
  · rintro ⟨h1, h2, h3⟩
    exact ⟨⟨h1, by rw [h2]; exact h3⟩, h2⟩

/-- **C114** (at the root).  A base URL without path, or with the path `/`, works. -/
theorem root_works_partial {scheme host path : Bytes} (h1 : scheme ≠ []) (hs : 58 ∉ scheme) (h2 : host ≠ []) (hh : 47 ∉ host)
    (hp : path = [] ∨ path = b!"/") :
    ∃ b, appBaseURL ⟨scheme, host, path⟩ = some b ∧ StaticWorks ⟨[], []⟩ b ∧ LinksWork ⟨[], []⟩ := by
  refine ⟨⟨scheme, host, b!"/"⟩, ?_, ?_⟩
  · unfold appBaseURL
    rcases hp with rfl | rfl <;> simp [h1, h2]
  · exact (pages_work_iff_partial ⟨[], []⟩ hs hh rfl).2 ⟨rfl, rfl, rfl⟩

/-- **C114**.  An application cannot be served as `https://mysite.com/appdash`, the example of the documentation, in any way. -/
theorem not_served_under_path : ¬ ServedUnderAnyPath := by
  intro h
  obtain ⟨d, b, h1, h2, h3, h4⟩ := h b!"https" b!"mysite.com" b!"/appdash" (by decide) (by decide) (by decide) (by decide)
    (by unfold PathPrefix; decide)
  have hb : b = ⟨b!"https", b!"mysite.com", b!"/appdash"⟩ := by
    have : appBaseURL ⟨b!"https", b!"mysite.com", b!"/appdash"⟩ = some ⟨b!"https", b!"mysite.com", b!"/appdash"⟩ := by decide
    rw [this] at h2; injection h2 with h2; exact h2.symm
  subst hb
  have := (pages_work_iff_partial d (by decide) (by decide) rfl).1 ⟨h3, h4⟩
  exact absurd this.2.2 (by decide)

/-- What the pages then refer to. -/
example : staticRef ⟨b!"https", b!"mysite.com", b!"/appdash"⟩ b!"logo.png" = b!"https://mysite.com/appdashstatic/logo.png" := by decide
/-- With a subrouter the file is not found even under its proper name. -/
example : staticFile b!"/appdash" b!"/appdash/static/logo.png" = none := by decide
example : staticFile [] b!"/static/logo.png" = some b!"logo.png" := by decide

end Appdash
