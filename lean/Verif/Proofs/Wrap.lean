import Verif.Spec.Wrap
import Verif.Proofs.Http

namespace Appdash

open Spec

/-- Nothing more changes what the client receives except data. -/
theorem recorderOps_portable (b : Bool) (ops : List HandlerOp) : ∀ w : WebWriter,
    recorderOps ⟨b, h⟩ w ops = w.ops (if b then ops else ops.filter fun o => match o with
      | .flush => false
      | _ => true) := by
  induction ops with
  | nil => intro w; cases b <;> rfl
  | cons o os ih =>
    intro w
    cases b with
    | true =>
      simp only [if_true] at ih ⊢
      cases o <;> simp only [recorderOps, recorderOp, WebWriter.ops, WebWriter.op, if_true, ih]
      all_goals (first | rfl | (cases w.writeHeader _ <;> simp [ih]))
    | false =>
      simp only [Bool.false_eq_true, if_false] at ih ⊢
      cases o <;> simp only [recorderOps, recorderOp, List.filter_cons, WebWriter.ops, WebWriter.op, if_true, ih, Bool.false_eq_true, if_false]
      all_goals (first | rfl | (cases w.writeHeader _ <;> simp [ih]))

theorem ops_sent {ops : List HandlerOp} : ∀ {w w' : WebWriter}, w.sent.isSome → w.ops ops = some w' → w'.sent = w.sent := by
  induction ops with
  | nil => intro w w' _ h; injection h with h; rw [h]
  | cons o os ih =>
    intro w w' hs h
    obtain ⟨x, hx⟩ := Option.isSome_iff_exists.1 hs
    simp only [WebWriter.ops] at h
    split at h
    · cases h
    · rename_i w1 h1
      have e : w1.sent = w.sent := by
        cases o <;> simp only [WebWriter.op, WebWriter.writeHeader, WebWriter.write, WebWriter.flush, hx] at h1 <;>
          (injection h1 with h1; subst h1; simp [hx])
      rw [← e]
      exact ih (by rw [e, hx]; rfl) h

theorem ops_unsent {ops : List HandlerOp} (hn : ¬ Sends ⟨true, h⟩ ops) : ∀ {w w' : WebWriter}, w.ops ops = some w' →
    w'.sent = w.sent ∧ w'.body = w.body := by
  induction ops with
  | nil => intro w w' h; injection h with h; simp [h]
  | cons o os ih =>
    intro w w' hw
    cases o with
    | editHeader f =>
      simp only [WebWriter.ops, WebWriter.op] at hw
      have := ih (fun ⟨x, hx, hs⟩ => hn ⟨x, by simp [hx], hs⟩) hw
      exact this
    | writeHeader c => exact absurd ⟨_, List.mem_cons_self, trivial⟩ hn
    | write c => exact absurd ⟨_, List.mem_cons_self, trivial⟩ hn
    | flush => exact absurd ⟨_, List.mem_cons_self, rfl⟩ hn

theorem ops_sends {ops : List HandlerOp} (hn : Sends ⟨true, h⟩ ops) : ∀ {w w' : WebWriter}, w.ops ops = some w' → w'.sent.isSome := by
  induction ops with
  | nil => obtain ⟨x, hx, -⟩ := hn; cases hx
  | cons o os ih =>
    intro w w' hw
    simp only [WebWriter.ops] at hw
    split at hw
    · cases hw
    · rename_i w1 h1
      by_cases hs : w1.sent.isSome
      · rw [ops_sent hs hw]; exact hs
      · refine ih ?_ hw
        obtain ⟨x, hx, hxs⟩ := hn
        rcases List.mem_cons.1 hx with rfl | hx
        · exfalso
          cases x <;> simp only [WebWriter.op, WebWriter.writeHeader, WebWriter.write, WebWriter.flush] at h1 hxs
          · split at h1
            · injection h1 with h1; subst h1; simp_all
            · split at h1
              · injection h1 with h1; subst h1; simp at hs
              · cases h1
          all_goals (injection h1 with h1; subst h1; simp at hs)
        · exact ⟨x, hx, hxs⟩

theorem sends_filter {c : Bool} {ops : List HandlerOp} : Sends ⟨true, c⟩ (ops.filter fun o => match o with
      | .flush => false
      | _ => true) ↔ Sends ⟨false, c⟩ ops := by
  simp only [Sends, List.mem_filter]
  constructor
  · rintro ⟨o, ⟨ho, hf⟩, h⟩
    refine ⟨o, ho, ?_⟩
    cases o <;> simp_all
  · rintro ⟨o, ho, h⟩
    refine ⟨o, ⟨ho, ?_⟩, ?_⟩ <;> cases o <;> simp_all

theorem sends_caps {b c c' : Bool} {ops : List HandlerOp} (h : Sends ⟨b, c⟩ ops) : Sends ⟨b, c'⟩ ops := h

/-- Behind the middleware, a portable handler does to the writer what it does without it. -/
theorem recorder_plain {next : WebHandler} (hp : Portable next) (caps : WriterCaps) (w : WebWriter) :
    recorderOps caps w (next recorderCaps) = w.ops (next caps) ∧
      (Sends caps (next recorderCaps) ↔ Sends ⟨true, caps.hijacker⟩ (next caps)) := by
  obtain ⟨ops, ho⟩ := hp
  obtain ⟨b, c⟩ := caps
  rw [ho, ho, recorderCaps]
  simp only [if_true]
  refine ⟨recorderOps_portable b ops w, ?_⟩
  cases b
  · simp only [Bool.false_eq_true, if_false]
    exact sends_filter.symm
  · rfl

/-- What is true of the header all the time is true of the header sent. -/
theorem ops_header {P : Header → Prop} {ops : List HandlerOp} (hf : ∀ f, .editHeader f ∈ ops → ∀ h, P h → P (f h)) :
    ∀ {w w' : WebWriter}, P w.header → (∀ x, w.sent = some x → P x.2) → w.ops ops = some w' →
      P w'.header ∧ ∀ x, w'.sent = some x → P x.2 := by
  induction ops with
  | nil => intro w w' h1 h2 h; injection h with h; subst h; exact ⟨h1, h2⟩
  | cons o os ih =>
    intro w w' h1 h2 h
    simp only [WebWriter.ops] at h
    split at h
    · cases h
    · rename_i w1 hw
      have key : P w1.header ∧ ∀ x, w1.sent = some x → P x.2 := by
        cases o with
        | editHeader f =>
          injection hw with hw; subst hw
          exact ⟨hf f (by simp) _ h1, h2⟩
        | writeHeader c =>
          simp only [WebWriter.op, WebWriter.writeHeader] at hw
          split at hw
          · injection hw with hw; subst hw; exact ⟨h1, h2⟩
          · split at hw
            · injection hw with hw; subst hw
              exact ⟨h1, fun x hx => by injection hx with hx; subst hx; exact h1⟩
            · cases hw
        | write b =>
          injection hw with hw; subst hw
          refine ⟨h1, fun x hx => ?_⟩
          simp only [WebWriter.write, Option.some.injEq] at hx
          cases hs : w.sent with
          | none => rw [hs] at hx; subst hx; exact h1
          | some y => rw [hs] at hx; subst hx; exact h2 y hs
        | flush =>
          injection hw with hw; subst hw
          refine ⟨h1, fun x hx => ?_⟩
          simp only [WebWriter.flush, Option.some.injEq] at hx
          cases hs : w.sent with
          | none => rw [hs] at hx; subst hx; exact h1
          | some y => rw [hs] at hx; subst hx; exact h2 y hs
      exact ih (fun f hm => hf f (by simp [hm])) key.1 key.2 h

theorem ops_unsent_some {ops : List HandlerOp} (hn : ¬ Sends ⟨true, c⟩ ops) : ∀ w : WebWriter, ∃ w', w.ops ops = some w' := by
  induction ops with
  | nil => exact fun w => ⟨w, rfl⟩
  | cons o os ih =>
    intro w
    cases o with
    | editHeader f => exact ih (fun ⟨x, hx, hs⟩ => hn ⟨x, by simp [hx], hs⟩) _
    | writeHeader c => exact absurd ⟨_, List.mem_cons_self, trivial⟩ hn
    | write c => exact absurd ⟨_, List.mem_cons_self, trivial⟩ hn
    | flush => exact absurd ⟨_, List.mem_cons_self, rfl⟩ hn

end Appdash
