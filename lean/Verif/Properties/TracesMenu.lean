import Verif.Proofs.TracesMenu
import Verif.Properties.UploadMany

/-!
# C150: exporting and importing with the menus of the list of traces
-/

namespace Appdash.TracesMenu

open Spec

/-- Property C150, in full: a list of traces is loaded, and after anything that a user does there "Export Selected" shows the menu with a
text of the traces whose boxes are ticked. -/
def ExportShowsTicked : Prop :=
  ∀ (f : JVal → Bytes), Stringifies f → ∀ (nils : SpanID → Bool × Bool) (trs : List Tree) (acts : List MenuAct),
    (((TracesMenus.load nils trs).run f acts).act f .exportSelected).exportShown = true ∧
      IsExports nils (selectedTraces trs (clicksOf acts)) (((TracesMenus.load nils trs).run f acts).act f .exportSelected).exportText

/-- The text in the menu after "Export Selected". -/
theorem export_text (f : JVal → Bytes) (nils : SpanID → Bool × Bool) (trs : List Tree) (acts : List MenuAct) :
    (((TracesMenus.load nils trs).run f acts).act f .exportSelected).exportText =
      if selectedTraces trs (clicksOf acts) = [] then ((TracesMenus.load nils trs).run f acts).exportText
      else f (.arr ((selectedTraces trs (clicksOf acts)).map (encodeTrace nils))) := by
  have hp : ((TracesMenus.load nils trs).run f acts).page.selected =
      some ((selectedTraces trs (clicksOf acts)).map (encodeTrace nils)) := by
    rw [run_page]
    exact selected_eq nils trs (clicksOf acts)
  rw [TracesMenus.act, TracesMenus.export]
  dsimp only
  rw [hp]
  dsimp only
  rw [List.length_map]
  by_cases e : selectedTraces trs (clicksOf acts) = []
  · rw [if_pos e, if_pos (by rw [e]; rfl)]
  · rw [if_neg e, if_neg (by rwa [List.length_eq_zero_iff])]

/-- **C150** (export).  If some box is ticked, "Export Selected" shows the menu, with a text of the traces whose boxes are ticked, whatever
was done before. -/
theorem export_shows_ticked_partial {f : JVal → Bytes} (hf : Stringifies f) (nils : SpanID → Bool × Bool) (trs : List Tree)
    (acts : List MenuAct) (h : selectedTraces trs (clicksOf acts) ≠ []) :
    (((TracesMenus.load nils trs).run f acts).act f .exportSelected).exportShown = true ∧
      IsExports nils (selectedTraces trs (clicksOf acts)) (((TracesMenus.load nils trs).run f acts).act f .exportSelected).exportText := by
  refine ⟨(export_page f _).2, ?_⟩
  rw [export_text, if_neg h]
  exact hf _ _ (exports_text Layout.indent_blank nils (selectedTraces trs (clicksOf acts)))

/-- **C150** (nothing ticked).  If no box is ticked, the menu is shown with the text that it had before. -/
theorem export_nothing_partial (f : JVal → Bytes) (nils : SpanID → Bool × Bool) (trs : List Tree) (acts : List MenuAct)
    (h : selectedTraces trs (clicksOf acts) = []) :
    (((TracesMenus.load nils trs).run f acts).act f .exportSelected).exportShown = true ∧
      (((TracesMenus.load nils trs).run f acts).act f .exportSelected).exportText = ((TracesMenus.load nils trs).run f acts).exportText := by
  refine ⟨(export_page f _).2, ?_⟩
  rw [export_text, if_pos h]

/-- There are functions as is assumed of `JSON.stringify`. -/
theorem stringifies_some : ∃ f, Stringifies f := by
  classical
  refine ⟨fun v => if h : ∃ s, IsJSON s v then h.choose else [], fun s v h => ?_⟩
  have h' : ∃ s, IsJSON s v := ⟨s, h⟩
  dsimp only
  rw [dif_pos h']
  exact h'.choose_spec

/-- The list of one trace of one span. -/
def single : List Tree := [.node ⟨⟨1, 2, 0⟩, []⟩ []]

example : selectedTraces single (clicksOf [.exportSelected, .click (.box 0), .exportSelected, .click .toggle, .click .toggle]) ≠ [] ∧
    selectedTraces single (clicksOf [.exportSelected, .click (.box 0)]) = [] := by decide

/-- **C150** (an old text).  The only trace of the list is exported, its box is then cleared, and "Export Selected" shows the trace again. -/
theorem export_shows_old : ¬ ExportShowsTicked := by
  intro H
  obtain ⟨f, hf⟩ := stringifies_some
  have h1 := (H f hf (fun _ => (false, false)) single [.exportSelected, .click (.box 0)]).2
  have e : selectedTraces single (clicksOf [.exportSelected, .click (.box 0)]) = [] := by decide
  rw [(export_nothing_partial f _ single _ e).2, e] at h1
  have h2 := (export_shows_ticked_partial hf (fun _ => (false, false)) single [] (by decide)).2
  have click : ∀ (m : TracesMenus) c, (m.act f (.click c)).exportText = m.exportText := fun _ _ => rfl
  rw [TracesMenus.run, List.foldl_cons, List.foldl_cons, List.foldl_nil, click] at h1
  rw [TracesMenus.run, List.foldl_nil] at h2
  have h3 := (parse_isJSON h1).symm.trans (parse_isJSON h2)
  simp [selectedTraces, single, clicksOf, tickedAfter] at h3

/-- **C150** (menus).  The two menus are never shown together. -/
theorem one_menu (f : JVal → Bytes) (nils : SpanID → Bool × Bool) (trs : List Tree) (acts : List MenuAct) :
    ¬ (((TracesMenus.load nils trs).run f acts).importShown = true ∧ ((TracesMenus.load nils trs).run f acts).exportShown = true) := by
  have h := run_menus f acts (.load nils trs) rfl
  rintro ⟨h1, h2⟩
  rw [h1, h2] at h
  cases h

/-- What is shown, as a menu. -/
theorem menu_next (f : JVal → Bytes) (acts : List MenuAct) :
    ∀ (m : TracesMenus) (shown : Option Menu), m.importShown = decide (shown = some .imports) → m.exportShown = decide (shown = some .exports) →
      (m.run f acts).importShown = decide (acts.foldl shownNext shown = some .imports) ∧
        (m.run f acts).exportShown = decide (acts.foldl shownNext shown = some .exports) := by
  induction acts with
  | nil => exact fun m shown h1 h2 => ⟨h1, h2⟩
  | cons a acts ih =>
    intro m shown h1 h2
    have ex : (m.export f).importShown = (m.exportShown && m.importShown) ∧ (m.export f).exportShown = true := by
      unfold TracesMenus.export
      dsimp only
      split
      · exact ⟨rfl, rfl⟩
      · split <;> exact ⟨rfl, rfl⟩
    refine ih (m.act f a) (shownNext shown a) ?_ ?_
    · rcases shown with _ | _ | _ <;> cases a <;>
        simp_all [TracesMenus.act, shownNext] <;> split <;> simp_all
    · rcases shown with _ | _ | _ <;> cases a <;>
        simp_all [TracesMenus.act, shownNext] <;> split <;> simp_all

/-- **C150** (which menu).  No menu is shown at first; the button for imports opens its menu or closes it, "Export Selected" opens the other
one, "Cancel" closes the menu it is in, and nothing else opens or closes one. -/
theorem menu_shown (f : JVal → Bytes) (nils : SpanID → Bool × Bool) (trs : List Tree) (acts : List MenuAct) :
    (((TracesMenus.load nils trs).run f acts).importShown = true ↔ acts.foldl shownNext none = some .imports) ∧
      (((TracesMenus.load nils trs).run f acts).exportShown = true ↔ acts.foldl shownNext none = some .exports) := by
  obtain ⟨h1, h2⟩ := menu_next f acts (.load nils trs) none rfl rfl
  rw [h1, h2]
  simp

example : [MenuAct.importButton, .exportSelected, .importCancel].foldl shownNext none = some .exports ∧
    [MenuAct.exportSelected, .exportCancel].foldl shownNext none = none := by decide

/-- **C150** (import).  "Import JSON" posts the text of the menu, unless there is nothing but white space in it; so it posts every text
that is JSON. -/
theorem import_posts (f : JVal → Bytes) (m : TracesMenus) (s : Bytes) :
    (JsBlank s → ((m.act f (.importType s)).act f .importAction).posted = m.posted) ∧
    (¬ JsBlank s → ((m.act f (.importType s)).act f .importAction).posted = m.posted ++ [s]) ∧
    ((∃ v, IsJSON s v) → ((m.act f (.importType s)).act f .importAction).posted = m.posted ++ [s]) := by
  have h1 : JsBlank s → ((m.act f (.importType s)).act f .importAction).posted = m.posted := by
    intro h
    have hb : jsBlank s = true := (jsBlank_iff s).2 h
    simp [TracesMenus.act, hb]
  have h2 : ¬ JsBlank s → ((m.act f (.importType s)).act f .importAction).posted = m.posted ++ [s] := by
    intro h
    have hb : jsBlank s = false := Bool.eq_false_iff.2 (mt (jsBlank_iff s).1 h)
    simp [TracesMenus.act, hb]
  exact ⟨h1, h2, fun ⟨_, h⟩ => h2 (isJSON_not_blank h)⟩

example : JsBlank b!" \n" ∧ IsJSON b!" []" (.arr []) :=
  ⟨.cons (u := 32) (by unfold jsWhite; omega) (.cons (u := 10) (by unfold jsWhite; omega) .nil),
    ⟨b!" ", b!"[]", [], by unfold Blank; decide, by unfold Blank; decide, .arr0 (w := []) (by unfold Blank; decide), rfl⟩⟩

/-- **C150** (both together).  On the list of the traces of a store some boxes are ticked, after whatever was done there.  The text that
"Export Selected" shows is put into "Import JSON" on a list of another application, which posts it.  Each of the ticked traces that the
other store did not have is then returned by it exactly as it was listed, and its other traces are as before; on the conditions of C86. -/
theorem export_imported {f f' : JVal → Bytes} (hf : Stringifies f) (nils : SpanID → Bool × Bool) {ops ops' : List StoreOp} {ms ms' : MemStore}
    (h : MemStore.new.run ops = some ms) (h' : MemStore.new.run ops' = some ms') {ptrs : List Addr} {trs : List Tree}
    (hp : ptrs.Perm (ms.tracesPtr {})) (hv : ms.tracesView ptrs = some trs) {acts : List MenuAct}
    (hne : selectedTraces trs (clicksOf acts) ≠ []) (hk : ∀ tr ∈ selectedTraces trs (clicksOf acts), UTF8Keys tr ∧ TrueRoot tr)
    (m : TracesMenus) :
    ∃ text ms'', ((m.act f' (.importType (((TracesMenus.load nils trs).run f acts).act f .exportSelected).exportText)).act f'
        .importAction).posted = m.posted ++ [text] ∧ serveUploadBody ms' text = (ms'', .ok) ∧
      (∀ tr ∈ selectedTraces trs (clicksOf acts), ms'.view tr.span.id.trace = .notFound → ms''.view tr.span.id.trace = .found tr) ∧
      ∀ t, (ms'.view t ≠ .notFound ∨ ∀ tr ∈ selectedTraces trs (clicksOf acts), tr.span.id.trace ≠ t) → ms''.view t = ms'.view t := by
  obtain ⟨-, ht⟩ := export_shows_ticked_partial hf nils trs acts hne
  obtain ⟨trs', e1, hm, hnd⟩ := traces_lists_all h {} ptrs hp
  rw [hv] at e1
  cases e1
  have hfound : ∀ tr ∈ selectedTraces trs (clicksOf acts), ms.view tr.span.id.trace = .found tr := by
    intro tr htr
    obtain ⟨t, ht⟩ := (hm tr).1 ((selectedTraces_sublist trs (clicksOf acts)).subset htr)
    rwa [(view_wellPlaced h ht).trace _ (span_mem_spans tr)]
  have hids : ((selectedTraces trs (clicksOf acts)).map fun t => t.span.id.trace).Nodup :=
    ((selectedTraces_sublist trs (clicksOf acts)).map _).nodup hnd
  obtain ⟨ms'', h1, h2, h3⟩ := upload_selection h h' (sel := (selectedTraces trs (clicksOf acts)).map fun t => (t.span.id.trace, t))
    (by
      intro p hp
      obtain ⟨tr, htr, rfl⟩ := List.mem_map.1 hp
      exact hfound tr htr)
    (by rw [List.map_map]; exact hids)
    (by
      intro p hp
      obtain ⟨tr, htr, rfl⟩ := List.mem_map.1 hp
      exact hk tr htr)
    nils (text := (((TracesMenus.load nils trs).run f acts).act f .exportSelected).exportText)
    (by
      rw [List.map_map]
      have : (Prod.snd ∘ fun t : Tree => (t.span.id.trace, t)) = id := rfl
      rw [this, List.map_id]
      exact ht)
  refine ⟨_, ms'', (import_posts f' m _).2.2 ⟨_, ht⟩, h1, ?_, ?_⟩
  · intro tr htr hnf
    exact h2 _ (List.mem_map.2 ⟨tr, htr, rfl⟩) hnf
  · rintro t (ht' | ht')
    · exact h3 t (.inl ht')
    · refine h3 t (.inr ?_)
      intro p hp
      obtain ⟨tr, htr, rfl⟩ := List.mem_map.1 hp
      exact ht' tr htr

-- The list of the store `twoTraces`, whose traces meet the conditions; the box of the second is cleared.
example : (MemStore.new.run twoTraces).bind (fun ms => ms.tracesView (ms.tracesPtr {})) =
    some [.node ⟨⟨1, 5, 0⟩, [⟨b!"k<", some b!"v"⟩]⟩ [.node ⟨⟨1, 6, 5⟩, []⟩ []], .node ⟨⟨2, 7, 0⟩, []⟩ []] := by decide_cbv
example : selectedTraces [.node ⟨⟨1, 5, 0⟩, [⟨b!"k<", some b!"v"⟩]⟩ [.node ⟨⟨1, 6, 5⟩, []⟩ []], .node ⟨⟨2, 7, 0⟩, []⟩ []]
    (clicksOf [.importButton, .click (.box 1), .exportSelected]) = [.node ⟨⟨1, 5, 0⟩, [⟨b!"k<", some b!"v"⟩]⟩ [.node ⟨⟨1, 6, 5⟩, []⟩ []]] := by
  decide

end Appdash.TracesMenu
