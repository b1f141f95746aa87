import Verif.Proofs.Handler
import Verif.Proofs.Base64Spec

/-!
# C55, C56: basic authentication and buffered pages
-/

namespace Appdash

open Spec

/-- **C55** (configuration).  The option `user:passwd`, cut at its first colon, is accepted exactly if both parts are
non-empty, and then the wanted header value is `Basic` followed by the base64 form of the option. -/
theorem auth_configured (opt want : Bytes) :
    authConfig opt = some (some want) ↔
      ∃ user passwd, opt = user ++ 58 :: passwd ∧ 58 ∉ user ∧ user ≠ [] ∧ passwd ≠ [] ∧
        want = b!"Basic " ++ b64Encode opt := by
  unfold authConfig
  constructor
  · intro h
    split at h
    · simp at h
    · split at h
      · cases h
      · rename_i user passwd hc
        split at h
        · cases h
        · rename_i hne
          obtain ⟨e, hu⟩ := cutColon_some _ _ _ hc
          simp only [Option.some.injEq] at h
          refine ⟨user, passwd, e, hu, fun h' => hne (Or.inl h'), fun h' => hne (Or.inr h'), ?_⟩
          rw [← h, e, authWant]
          simp
  · rintro ⟨user, passwd, rfl, hu, h1, h2, rfl⟩
    have : ¬ (user ++ 58 :: passwd = []) := by simp
    rw [if_neg this, cutColon_append _ _ hu]
    simp [h1, h2, authWant]

/-- **C55** (configuration).  That form is the text that RFC 4648 prescribes for the option. -/
theorem auth_base64 (opt want : Bytes) :
    authConfig opt = some (some want) ↔
      ∃ user passwd text, opt = user ++ 58 :: passwd ∧ 58 ∉ user ∧ user ≠ [] ∧ passwd ≠ [] ∧
        Base64Written text opt ∧ want = b!"Basic " ++ text := by
  rw [auth_configured]
  constructor
  · rintro ⟨user, passwd, h1, h2, h3, h4, h5⟩
    exact ⟨user, passwd, _, h1, h2, h3, h4, b64Encode_written opt, h5⟩
  · rintro ⟨user, passwd, text, h1, h2, h3, h4, h5, h6⟩
    exact ⟨user, passwd, h1, h2, h3, h4, by rw [h6, written_eq h5]⟩

/-- **C55** (no option).  Authentication is not required exactly if the option is empty. -/
theorem auth_not_configured (opt : Bytes) : authConfig opt = some none ↔ opt = [] := by
  unfold authConfig
  constructor
  · intro h
    split at h
    · assumption
    · split at h
      · cases h
      · split at h <;> simp at h
  · rintro rfl; rfl

/-- **C55**.  A request reaches the app if and only if its (first) `Authorization` header is exactly the wanted value,
whatever the app does; otherwise it is answered with 401 and the app is not run. -/
theorem auth_exact (want : Bytes) (inner : WebWriter → Option WebWriter) (reqHeader h : Header) :
    (reqHeader.find b!"Authorization" = want →
      authServe want inner reqHeader (.new h) = (inner (.new h), true)) ∧
    (reqHeader.find b!"Authorization" ≠ want →
      ∃ w, authServe want inner reqHeader (.new h) = (some w, false) ∧ w.received = unauthorizedResponse h) := by
  have e : reqHeader.find b!"authorization" = reqHeader.find b!"Authorization" := by
    have : canonicalKey b!"authorization" = canonicalKey b!"Authorization" := by decide
    simp only [Header.find, this]
  unfold authServe
  rw [e]
  constructor
  · rintro rfl
    have : constantTimeCompare (reqHeader.find b!"Authorization") (reqHeader.find b!"Authorization") = true :=
      (constantTimeCompare_iff _ _).2 rfl
    simp [this]
  · intro hne
    have : ¬ (want.length = (reqHeader.find b!"Authorization").length ∧
        constantTimeCompare want (reqHeader.find b!"Authorization") = true) := by
      rintro ⟨-, h⟩
      exact hne ((constantTimeCompare_iff _ _).1 h).symm
    simp only [this, if_false]
    obtain ⟨w, h1, h2⟩ := httpError_new
      { (WebWriter.new h) with header := (WebWriter.new h).header.put b!"WWW-Authenticate" b!"Basic realm=\"appdash\"" }
      rfl rfl b!"unauthorized" 401 (by decide) (by decide)
    exact ⟨w, by rw [h1], h2⟩

/-- **C55** (no two passwords).  Two configurations that admit a common request are the same. -/
theorem auth_distinguishes {opt opt' want want' : Bytes} (h : authConfig opt = some (some want))
    (h' : authConfig opt' = some (some want')) {inner : WebWriter → Option WebWriter} {reqHeader : Header} {w : WebWriter}
    (ha : (authServe want inner reqHeader w).2 = true) (ha' : (authServe want' inner reqHeader w).2 = true) :
    opt = opt' := by
  have key : ∀ x, (authServe x inner reqHeader w).2 = true → reqHeader.find b!"authorization" = x := by
    intro x hx
    unfold authServe at hx
    simp only at hx
    split at hx
    · rename_i hc
      exact ((constantTimeCompare_iff _ _).1 hc.2).symm
    · cases hx
  have e := (key _ ha).symm.trans (key _ ha')
  obtain ⟨-, -, -, -, -, -, hw⟩ := (auth_configured opt want).1 h
  obtain ⟨-, -, -, -, -, -, hw'⟩ := (auth_configured opt' want').1 h'
  rw [hw, hw', List.append_cancel_left_eq] at e
  exact b64Encode_inj e

example : authConfig b!"Aladdin:open:sesame" = some (some b!"Basic QWxhZGRpbjpvcGVuOnNlc2FtZQ==") := by decide
example : authConfig b!"Aladdin" = none ∧ authConfig b!":x" = none ∧ authConfig b!"x:" = none := by decide
example : (authServe b!"Basic QWxhZGRpbjpvcGVuOnNlc2FtZQ==" some
    [(b!"Authorization", [b!"Basic QWxhZGRpbjpvcGVuOnNlc2FtZQ==", b!"x"])] (.new [])).2 = true := by decide
example : (authServe b!"Basic QWxhZGRpbjpvcGVuOnNlc2FtZQ==" some [] (.new [])).2 = false := by decide

/-- **C56** (failure).  If a handler returns an error or panics, the client receives the error response and nothing that the
handler has written: the response depends on the message only. -/
theorem failed_page (p : Page) (msg statusPanic : Bytes) (h : Header)
    (hp : p.result = .error msg ∨ p.result = .panic msg) (out : Option WebWriter)
    (hs : PageServes p statusPanic (.new h) out) :
    ∃ w, out = some w ∧ w.received = errorResponse h msg := by
  have : out = handleError (.new h) msg := by
    rcases hp with e | e <;> simpa [PageServes, e] using hs
  rw [this]
  exact httpError_new { (WebWriter.new h) with header := (WebWriter.new h).header.put b!"cache-control" b!"no-cache, max-age=0" }
    rfl rfl msg 500 (by decide) (by decide)

/-- **C56** (success).  If a handler succeeds, having set no status or one of 200..999, the client receives the status that
the handler set last, everything it wrote (unless that status, 204 or 304, allows no body), and the headers that it left in the header
map, with the content length added; headers set by outer handlers show through where the handler has not set them. -/
theorem successful_page (p : Page) (statusPanic : Bytes) (h : Header) (hp : p.result = .ok)
    (hst : pageStatus 0 p.ops = 0 ∨ 200 ≤ pageStatus 0 p.ops ∧ pageStatus 0 p.ops ≤ 999)
    (hmap : (AMap.keys (pageHeader [] p.ops)).Nodup) (out : Option WebWriter)
    (hs : PageServes p statusPanic (.new h) out) :
    ∃ w, out = some w ∧
      w.received.1 = (if pageStatus 0 p.ops = 0 then 200 else pageStatus 0 p.ops) ∧
      w.received.2.2 = (if w.received.1 = 204 ∨ w.received.1 = 304 then [] else pageBody p.ops) ∧
      ∀ k, AMap.get w.received.2.1 k =
        (if k = b!"Content-Length" ∧ pageBody p.ops ≠ [] then some [itoa (pageBody p.ops).length]
        else (AMap.get (pageHeader [] p.ops) k).or (AMap.get h k)) := by
  have hb := buffer_eq p.ops ⟨[], 0, none⟩
  simp only [List.nil_append, Option.getD_none] at hb
  obtain ⟨b1, b2, b3⟩ := hb
  simp only [PageServes, hp, Page.buffer, b3] at hs
  obtain ⟨order, hperm, hs⟩ := hs
  have hon : (AMap.keys order).Nodup := ((hperm.map Prod.fst).nodup_iff).2 hmap
  have hget : ∀ k, AMap.get (copyHeader order h) k =
      (AMap.get (pageHeader [] p.ops) k).or (AMap.get h k) := by
    intro k
    rw [copyHeader_get order h k hon, AMap.get_perm hon hperm]
    cases AMap.get (pageHeader [] p.ops) k <;> rfl
  have hcl : canonicalKey b!"Content-Length" = b!"Content-Length" := by decide
  have hget' : ∀ k, AMap.get ((copyHeader order h).put b!"Content-Length" (itoa (pageBody p.ops).length)) k =
      (if k = b!"Content-Length" then some [itoa (pageBody p.ops).length]
        else (AMap.get (pageHeader [] p.ops) k).or (AMap.get h k)) := by
    intro k
    simp only [Header.put, hcl]
    rw [AMap.get_set]
    by_cases e : k = b!"Content-Length"
    · simp [e]
    · have e' : ¬ b!"Content-Length" = k := fun x => e x.symm
      simp only [e, e', if_false]
      exact hget k
  generalize hpb : pageBody p.ops = body at b1 hget' ⊢
  generalize hps : pageStatus 0 p.ops = st at b2 hst ⊢
  generalize List.foldl ResponseBuffer.step ⟨[], 0, none⟩ p.ops = rb at b1 b2 hs
  obtain ⟨buf, status, hdr⟩ := rb
  simp only at b1 b2
  subst b1 b2
  simp only [ResponseBuffer.writeTo, WebWriter.new] at hs
  by_cases h0 : status = 0
  · subst h0
    simp only [ne_eq, not_true_eq_false, if_false] at hs
    cases buf with
    | nil =>
      simp only [List.length_nil, Nat.lt_irrefl, if_false] at hs
      refine ⟨_, hs, rfl, (ite_self _).symm, fun k => ?_⟩
      simp [WebWriter.received, hget]
    | cons c buf =>
      simp only [List.length_cons, Nat.zero_lt_succ, if_true] at hs
      refine ⟨_, hs, rfl, by simp [WebWriter.received, WebWriter.write, bodyAllowed], fun k => ?_⟩
      have := hget' k
      simp only [List.length_cons] at this
      simp [WebWriter.received, WebWriter.write, this]
  · have hv : validStatus status = true := by
      have := hst.resolve_left h0
      simp [validStatus]; omega
    simp only [ne_eq, h0, not_false_eq_true, if_true, if_false] at hs ⊢
    cases buf with
    | nil =>
      simp only [List.length_nil, Nat.lt_irrefl, if_false, WebWriter.writeHeader, hv, if_true] at hs
      refine ⟨_, hs, rfl, (ite_self _).symm, fun k => ?_⟩
      simp [WebWriter.received, hget]
    | cons c buf =>
      simp only [List.length_cons, Nat.zero_lt_succ, if_true, WebWriter.writeHeader, hv] at hs
      have hba : bodyAllowed status = !decide (status = 204 ∨ status = 304) := by
        have := hst.resolve_left h0
        by_cases e : status = 204 <;> by_cases e' : status = 304 <;> simp [bodyAllowed, e, e'] <;> omega
      refine ⟨_, hs, rfl, ?_, fun k => ?_⟩
      · by_cases e : status = 204 ∨ status = 304 <;> simp [WebWriter.received, WebWriter.write, hba, e]
      have := hget' k
      simp only [List.length_cons] at this
      simp [WebWriter.received, WebWriter.write, this]

/-- **C56** (total).  Every behaviour of a handler leads to some response. -/
theorem page_served (p : Page) (statusPanic : Bytes) (w : WebWriter) : ∃ out, PageServes p statusPanic w out := by
  unfold PageServes
  cases p.result with
  | error msg => exact ⟨_, rfl⟩
  | panic msg => exact ⟨_, rfl⟩
  | ok =>
    simp only
    generalize hw : p.buffer.writeTo (p.buffer.header.getD []) w = r
    obtain ⟨w', b⟩ := r
    cases b with
    | true => exact ⟨some w', _, List.Perm.refl _, by rw [hw]⟩
    | false => exact ⟨handleError w' statusPanic, _, List.Perm.refl _, by rw [hw]⟩

/-- A handler that writes a page and then fails. -/
def halfPage (e : PageEnd) : Page :=
  ⟨[.write b!"<html>", .writeHeader 404, .editHeader (·.put b!"x" b!"y"), .write b!"tail"], e⟩

example : ∃ w, PageServes (halfPage (.error b!"oops")) [] (.new []) (some w) ∧ w.received.2.2 = b!"oops\n" := ⟨_, rfl, rfl⟩
example : pageStatus 0 (halfPage .ok).ops = 404 ∧ pageBody (halfPage .ok).ops = b!"<html>tail" ∧
    AMap.keys (pageHeader [] (halfPage .ok).ops) = [b!"X"] := by decide

/-- The condition on the status is needed: with an invalid status, the client receives an error response that carries the
headers of the page, including its content length. -/
theorem invalid_status_mixes :
    ∃ w, PageServes ⟨[.write b!"hello world", .writeHeader 42], .ok⟩ b!"bad status" (.new []) (some w) ∧
      w.received.1 = 500 ∧ w.received.2.2 = b!"bad status\n" ∧
      AMap.get w.received.2.1 b!"Content-Length" = some [b!"11"] := by
  refine ⟨_, ⟨[], List.Perm.refl _, rfl⟩, ?_⟩
  decide

end Appdash
