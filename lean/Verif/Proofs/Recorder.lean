import Verif.Spec.Recorder
import Mathlib.Data.List.Induction

/-! # Proofs about `Recorder` -/

namespace Appdash

open Spec Recorder

theorem Recorder.run_append (env : RecEnv) : ∀ (a b : List RecOp) (r : Recorder),
    r.run env (a ++ b) = (((r.run env a).1.run env b).1, (r.run env a).2 ++ ((r.run env a).1.run env b).2)
  | [], b, r => by simp [Recorder.run]
  | op :: a, b, r => by
    simp only [List.cons_append, Recorder.run]
    rw [Recorder.run_append env a b]
    simp [List.append_assoc]

theorem Recorder.run_snoc (env : RecEnv) (a : List RecOp) (op : RecOp) (r : Recorder) :
    r.run env (a ++ [op]) = (((r.run env a).1.step env op).1, (r.run env a).2 ++ ((r.run env a).1.step env op).2) := by
  rw [Recorder.run_append]
  simp [Recorder.run]

/-- The fields the history determines directly. -/
structure Follows (logger : Bool) (span : SpanID) (ops : List RecOp) (r : Recorder) : Prop where
  logger : r.logger = logger
  span : r.span = span
  finished : r.finished = ops.any isFinish
  annotations : r.annotations = ops.flatMap eventAnnotations

theorem Recorder.error_fields (env : RecEnv) (r : Recorder) (m : RecMethod) (e : RecErr) :
    (r.error env m e).logger = r.logger ∧ (r.error env m e).span = r.span ∧
    (r.error env m e).finished = r.finished ∧ (r.error env m e).annotations = r.annotations ∧
    (r.error env m e).calls = r.calls ++ [(r.span, env.report r.calls m e)] ∧
    (r.error env m e).errors = (if r.logger then r.errors else r.errors ++ [e]) ∧
    (r.error env m e).logged = (if r.logger then r.logged ++ [(m, e)] else r.logged) := by
  unfold Recorder.error
  cases h : r.logger <;> simp [Recorder.failsafeAnnotation, h]

/-- What one call does, in terms of the specification. -/
structure Does (env : RecEnv) (before : List RecOp) (op : RecOp) (r r' : Recorder) (out : List RecErr) : Prop where
  calls : r'.calls = r.calls ++ (sends before op).toList.map (Prod.mk r.span) ++
    (meets env r.span before r.calls op).toList.map (fun e => (r.span,
      env.report (r.calls ++ (sends before op).toList.map (Prod.mk r.span)) e.1 e.2))
  errors : out ++ r'.errors =
    r.errors ++ if r.logger then [] else (meets env r.span before r.calls op).toList.map Prod.snd
  logged : r'.logged = r.logged ++ if r.logger then (meets env r.span before r.calls op).toList else []
  out : (∀ h : op = .errors, out = r.errors ∧ r'.errors = []) ∧ (op ≠ .errors → out = [])

theorem Recorder.annotation_does (env : RecEnv) (r : Recorder) (as : List Annotation) :
    (r.annotation env as).logger = r.logger ∧ (r.annotation env as).span = r.span ∧
    (r.annotation env as).finished = r.finished ∧ (r.annotation env as).annotations = r.annotations ∧
    (r.annotation env as).calls = r.calls ++ [(r.span, as)] ++ (env.answer r.calls (r.span, as)).toList.map
      (fun e => (r.span, env.report (r.calls ++ [(r.span, as)]) .annotation e)) ∧
    (r.annotation env as).errors =
      r.errors ++ (if r.logger then [] else (env.answer r.calls (r.span, as)).toList) ∧
    (r.annotation env as).logged =
      r.logged ++ (if r.logger then (env.answer r.calls (r.span, as)).toList.map (Prod.mk .annotation) else []) := by
  cases h : env.answer r.calls (r.span, as) with
  | none =>
    have e : r.annotation env as = { r with calls := r.calls ++ [(r.span, as)] } := by
      simp only [Recorder.annotation, Recorder.failsafeAnnotation, h]
    rw [e]
    simp
  | some err =>
    have e : r.annotation env as = ({ r with calls := r.calls ++ [(r.span, as)] } : Recorder).error env .annotation err
      := by
      simp only [Recorder.annotation, Recorder.failsafeAnnotation, h]
    rw [e]
    obtain ⟨h1, h2, h3, h4, h5, h6, h7⟩ :=
      Recorder.error_fields env ({ r with calls := r.calls ++ [(r.span, as)] } : Recorder) .annotation err
    rw [h1, h2, h3, h4, h5, h6, h7]
    refine ⟨rfl, rfl, rfl, rfl, by simp, ?_, ?_⟩ <;> cases r.logger <;> simp

theorem Follows.step {env : RecEnv} {logger : Bool} {span : SpanID} {before : List RecOp} {r : Recorder}
    (F : Follows logger span before r) (op : RecOp) :
    Follows logger span (before ++ [op]) (r.step env op).1 ∧
      Does env before op r (r.step env op).1 (r.step env op).2 := by
  have hf := F.finished
  have ha := F.annotations
  cases op with
  | event as =>
    cases as with
    | error err =>
      obtain ⟨h1, h2, h3, h4, h5, h6, h7⟩ := Recorder.error_fields env r .event err
      refine ⟨⟨by simp only [Recorder.step, Recorder.event]; rw [h1, F.logger],
        by simp only [Recorder.step, Recorder.event]; rw [h2, F.span],
        by simp only [Recorder.step, Recorder.event]; rw [h3, hf]; simp [isFinish],
        by simp only [Recorder.step, Recorder.event]; rw [h4, ha]; simp [eventAnnotations]⟩, ?_⟩
      refine ⟨?_, ?_, ?_, (by simp), fun _ => rfl⟩
      · simp only [Recorder.step, Recorder.event]; rw [h5]; simp [sends, meets]
      · simp only [Recorder.step, Recorder.event]; rw [h6]; cases r.logger <;> simp [meets]
      · simp only [Recorder.step, Recorder.event]; rw [h7]; cases r.logger <;> simp [meets]
    | ok as =>
      refine ⟨⟨F.logger, F.span, ?_, ?_⟩, ?_⟩
      · simp only [Recorder.step, Recorder.event]; rw [hf]; simp [isFinish]
      · simp only [Recorder.step, Recorder.event]; rw [ha]; simp [eventAnnotations]
      · refine ⟨?_, ?_, ?_, (by simp), fun _ => rfl⟩ <;> simp [Recorder.step, Recorder.event, sends, meets]
  | annotation as =>
    obtain ⟨h1, h2, h3, h4, h5, h6, h7⟩ := Recorder.annotation_does env r as
    refine ⟨⟨by simp only [Recorder.step]; rw [h1, F.logger], by simp only [Recorder.step]; rw [h2, F.span],
      by simp only [Recorder.step]; rw [h3, hf]; simp [isFinish],
      by simp only [Recorder.step]; rw [h4, ha]; simp [eventAnnotations]⟩, ?_⟩
    refine ⟨?_, ?_, ?_, (by simp), fun _ => rfl⟩
    · simp only [Recorder.step, sends, meets]; rw [h5]
      cases env.answer r.calls (r.span, as) <;> simp
    · simp only [Recorder.step, sends, meets]; rw [h6]
      cases env.answer r.calls (r.span, as) <;> simp
    · simp only [Recorder.step, sends, meets]; rw [h7]
      cases env.answer r.calls (r.span, as) <;> simp
  | finish =>
    by_cases hfin : before.any isFinish = true
    · rw [hfin] at hf
      obtain ⟨h1, h2, h3, h4, h5, h6, h7⟩ := Recorder.error_fields env r .finish .multipleFinish
      have e : (r.step env .finish) = (r.error env .finish .multipleFinish, []) := by
        simp [Recorder.step, Recorder.finish, hf]
      rw [e]
      refine ⟨⟨by rw [h1, F.logger], by rw [h2, F.span], by rw [h3, hf]; simp [isFinish],
        by rw [h4, ha]; simp [eventAnnotations]⟩, ?_⟩
      refine ⟨?_, ?_, ?_, (by simp), fun _ => rfl⟩
      · rw [h5]; simp [sends, meets, hfin]
      · rw [h6]; cases r.logger <;> simp [meets, hfin]
      · rw [h7]; cases r.logger <;> simp [meets, hfin]
    · have hfin' : before.any isFinish = false := by simpa using hfin
      rw [hfin'] at hf
      obtain ⟨h1, h2, h3, h4, h5, h6, h7⟩ :=
        Recorder.annotation_does env ({ r with finished := true } : Recorder) r.annotations
      have e : (r.step env .finish) = (({ r with finished := true } : Recorder).annotation env r.annotations, []) := by
        simp [Recorder.step, Recorder.finish, hf]
      rw [e]
      refine ⟨⟨by rw [h1]; exact F.logger, by rw [h2]; exact F.span, by rw [h3]; simp [isFinish],
        by rw [h4]; simp only; rw [ha]; simp [eventAnnotations]⟩, ?_⟩
      refine ⟨?_, ?_, ?_, (by simp), fun _ => rfl⟩
      · rw [h5]; simp only [sends, meets, hfin', ha]
        cases env.answer r.calls (r.span, before.flatMap eventAnnotations) <;> simp
      · rw [h6]; simp only [meets, hfin', ha]
        cases env.answer r.calls (r.span, before.flatMap eventAnnotations) <;> simp
      · rw [h7]; simp only [meets, hfin', ha]
        cases env.answer r.calls (r.span, before.flatMap eventAnnotations) <;> simp
  | errors =>
    refine ⟨⟨F.logger, F.span, ?_, ?_⟩, ?_⟩
    · simp only [Recorder.step, Recorder.takeErrors]; rw [hf]; simp [isFinish]
    · simp only [Recorder.step, Recorder.takeErrors]; rw [ha]; simp [eventAnnotations]
    · refine ⟨?_, ?_, ?_, fun _ => ⟨rfl, rfl⟩, fun h => absurd rfl h⟩ <;>
        simp [Recorder.step, Recorder.takeErrors, sends, meets]

theorem follows_run (env : RecEnv) (logger : Bool) (span : SpanID) (ops : List RecOp) :
    Follows logger span ops ((Recorder.new logger span).run env ops).1 := by
  induction ops using List.reverseRecOn with
  | nil => exact ⟨rfl, rfl, rfl, rfl⟩
  | append_singleton ops op ih =>
    rw [Recorder.run_snoc]
    exact (ih.step op).1

theorem does_run (env : RecEnv) (logger : Bool) (span : SpanID) (before : List RecOp) (op : RecOp) :
    Does env before op ((Recorder.new logger span).run env before).1
      (((Recorder.new logger span).run env before).1.step env op).1
      (((Recorder.new logger span).run env before).1.step env op).2 :=
  ((follows_run env logger span before).step op).2

end Appdash
