import Verif.Proofs.EventPanic

/-!
# C104: which events annotations can make panic
-/

namespace Appdash

/-- **C104, exactly**, for events of usual fields: there are annotations that make reading the event panic if and only if some field is a slice,
an array, an interface or of a type defined from a scalar. -/
theorem annotations_panic_iff_partial (E : RichEvent) {ns : List Bytes} {ts : List RType} (ht : E.type = .struct ns ts)
    (hlen : ns.length = ts.length) (hn : ns.Nodup) (hid : ∀ n ∈ ns, FieldName n) (hf : ∀ t ∈ ts, UsualField t) :
    (∃ as, unmarshalR E as = none) ↔ ∃ t ∈ ts, Exposed t := by
  refine ⟨fun ⟨as, has⟩ => ?_, exposed_panics E ht hlen hn hid hf⟩
  refine Classical.byContradiction fun hno => ?_
  have hs : Steady E.type := by
    rw [ht]
    refine .struct ns ts fun t htm => ?_
    have hx : ¬ Exposed t := fun h => hno ⟨t, htm, h⟩
    cases hf t htm with
    | scalar d s =>
      have hd : d = false := by simpa [Exposed] using hx
      subst hd
      exact .scalar s
    | pointer s => exact .pointer s
    | map s => exact .map s
    | _ => exact absurd trivial hx
  unfold unmarshalR at has
  split at has
  · cases has
  · exact steady_reads hs _ _ (by simpa using has)

/-- A mail with its priority, its size, its receivers and its headers: the receivers make reading panic, whatever the other fields are called. -/
example : ∃ as, unmarshalR ⟨b!"mail", .struct [b!"To", b!"Size", b!"Priority", b!"Headers"]
    [.slice (.scalar false .string), .scalar false (.int 64), .ptr (.scalar false (.int 8)), .map true (.scalar false .string)]⟩ as = none := by
  refine (annotations_panic_iff_partial _ rfl rfl (by decide) ?_ ?_).2 ⟨.slice _, List.mem_cons_self .., trivial⟩
  · unfold FieldName
    decide
  · simp only [List.forall_mem_cons]
    exact ⟨.slice _, .scalar _ _, .pointer _, .map _, by simp⟩

/-- Without the receivers, no annotations do. -/
example : ¬ ∃ as, unmarshalR ⟨b!"mail", .struct [b!"Size", b!"Priority", b!"Headers"]
    [.scalar false (.int 64), .ptr (.scalar false (.int 8)), .map true (.scalar false .string)]⟩ as = none := by
  rw [annotations_panic_iff_partial _ rfl rfl (by decide) ?_ ?_]
  · simp [Exposed]
  · unfold FieldName
    decide
  · simp only [List.forall_mem_cons]
    exact ⟨.scalar _ _, .pointer _, .map _, by simp⟩

end Appdash
