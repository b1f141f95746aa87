import Verif.Properties.TracesScript
import Verif.Proofs.ExportForm
import Verif.Properties.JsonText

/-!
# C82 (continued): what the exported document of a trace says
-/

namespace Appdash

open Spec

/-- **C82** (form).  The page's text is a JSON document: a list with one object, which says, as `Exported` has it, the identifiers, the
annotations and the traces below, each in order. -/
theorem export_shows (nils : SpanID → Bool × Bool) (tr : Tree) :
    ∃ v, IsJSON (exportText nils tr) (.arr [v]) ∧ Exported nils v tr :=
  ⟨encodeTrace nils tr, exportText_isExport nils tr, exported_encode nils tr⟩

/-- **C82** (form).  The texts of an exported trace, of which the other theorems speak, are exactly the JSON texts of that form. -/
theorem export_form (nils : SpanID → Bool × Bool) (tr : Tree) (text : Bytes) :
    IsExport nils tr text ↔ ∃ v, IsJSON text (.arr [v]) ∧ Exported nils v tr := by
  constructor
  · exact fun h => ⟨_, h, exported_encode nils tr⟩
  · rintro ⟨v, h, hv⟩
    rw [exported_unique hv] at h
    exact h

/-- **C86, C83** (form).  The same for several traces. -/
theorem exports_form (nils : SpanID → Bool × Bool) (trs : List Tree) (text : Bytes) :
    IsExports nils trs text ↔ ∃ vs, IsJSON text (.arr vs) ∧ List.Forall₂ (Exported nils) vs trs := by
  have h := fun vs => forall₂_eq_map (encodeTrace nils) (Exported nils)
    (fun x y => ⟨exported_unique, fun e => e ▸ exported_encode nils y⟩) vs trs
  simp only [h, exists_eq_right]
  rfl

/-- **C142** (export).  "Export Selected" offers a list with the documents of the traces whose boxes are ticked. -/
theorem TracesScript.export_selected_form (nils : SpanID → Bool × Bool) (trs : List Tree) (clicks : List TracesClick) :
    ∃ vs, (clicks.foldl TracesPage.click (.load nils trs)).exported = some (.arr vs) ∧
      List.Forall₂ (Exported nils) vs (selectedTraces trs clicks) :=
  ⟨_, TracesScript.export_selected nils trs clicks,
    (forall₂_eq_map (encodeTrace nils) (Exported nils) (fun x y => ⟨exported_unique, fun e => e ▸ exported_encode nils y⟩) _ _).2 rfl⟩

/-- A document of two spans: an empty list that is not nil is written as such. -/
example : Exported (fun i => (i.span == 5, i.span == 6))
    (.obj [(b!"ID", .obj [(b!"Trace", .str b!"0000000000000001"), (b!"Span", .str b!"0000000000000005"), (b!"Parent", .str b!"0000000000000000")]),
      (b!"Annotations", .null),
      (b!"Sub", .arr [.obj [(b!"ID", .obj [(b!"Trace", .str b!"0000000000000001"), (b!"Span", .str b!"0000000000000006"), (b!"Parent", .str b!"0000000000000005")]),
        (b!"Annotations", .arr []), (b!"Sub", .null)]])])
    (.node ⟨⟨1, 5, 0⟩, []⟩ [.node ⟨⟨1, 6, 5⟩, []⟩ []]) := by
  have h := exported_encode (fun i => (i.span == 5, i.span == 6)) (.node ⟨⟨1, 5, 0⟩, []⟩ [.node ⟨⟨1, 6, 5⟩, []⟩ []])
  simp only [encodeTrace, encodeTraces] at h
  exact h

end Appdash
