import Verif.Model.AnnotationView
import Verif.Model.JsonText
import Verif.Model.Views

/-!
# Model of the HTML of the annotation tables, of the list of traces and of the script data

The templates traceapp/tmpl/data/trace.html and traces.html, as executed by package `html/template`.  White space between tags is
left out.
-/

namespace Appdash

/-- `html/template`'s replacement of a byte in text and in quoted attribute values (`htmlReplacementTable`). -/
def htmlEscapeByte (c : UInt8) : Bytes :=
  if c = 0 then [239, 191, 189]
  else if c = 34 then b!"&#34;"
  else if c = 38 then b!"&amp;"
  else if c = 39 then b!"&#39;"
  else if c = 43 then b!"&#43;"
  else if c = 60 then b!"&lt;"
  else if c = 62 then b!"&gt;"
  else [c]

/-- The escaping of a string. -/
def htmlEscape (s : Bytes) : Bytes := s.flatMap htmlEscapeByte

/-- traceapp/tmpl/data/trace.html:637, 657 and traces.html:66. -/
def rowHTML (r : Bytes × Bytes) : Bytes :=
  b!"<tr><th>" ++ (htmlEscape r.1 ++ (b!"</th><td>" ++ (htmlEscape r.2 ++ b!"</td></tr>")))

/-- traceapp/tmpl/data/trace.html:633-641, 654-660 and traces.html:62-70: the table with these rows; there is none if the span has no
annotations at all. -/
def tableHTML (as : List Annotation) (rows : List (Bytes × Bytes)) : Bytes :=
  if as = [] then [] else b!"<table class=\"table table-condensed table-striped\">" ++ (rows.flatMap rowHTML ++ b!"</table>")

/-- The label of a span (traceapp/tmpl/data/trace.html:627-631, 648-652 and traces.html:56-60). -/
def spanTitle (s : Span) : Bytes :=
  if annotationsName s.annotations ≠ [] then annotationsName s.annotations else s.id.span.toText

/-- traceapp/tmpl/data/trace.html:626-642, 647-661 and traces.html:55-71: a span with a table. -/
def spanHTML (s : Span) (rows : List (Bytes × Bytes)) : Bytes :=
  b!"<li class=\"trace\" id=\"span-" ++ (htmlEscape s.id.span.toText ++ (b!"\"><strong title=\"" ++ (htmlEscape s.id.toText ++
    (b!"\">" ++ (htmlEscape (spanTitle s) ++ (b!"</strong>" ++ (tableHTML s.annotations rows ++ b!"</li>")))))))

/-- traceapp/tmpl/data/trace.html:625-643: the view of the important annotations. -/
def dataViewHTML (reg : Registry) (s : Span) : Bytes :=
  b!"<ul id=\"dataView\" class=\"traces\">" ++ (spanHTML s (shortRows reg s.annotations) ++ b!"</ul>")

/-- traceapp/tmpl/data/trace.html:646-662: the view of all annotations. -/
def verboseViewHTML (s : Span) : Bytes :=
  b!"<ul id=\"verboseDataView\" class=\"traces\">" ++ (spanHTML s (verboseRows s.annotations) ++ b!"</ul>")

/-- trace.go:20-26 `Trace.String`. -/
def traceText (nils : SpanID → Bool × Bool) (tr : Tree) : Bytes := JVal.print .indent 0 (traceJSON nils tr)

/-- traceapp/tmpl/data/traces.html:49-73: a trace in the list.  (The URL is also normalised, which leaves the URLs of traces as they
are.) -/
def traceItemHTML (reg : Registry) (nils : SpanID → Bool × Bool) (tr : Tree) : Bytes :=
  b!"<li><input type=\"checkbox\" class=\"trace-checkbox\" checked=\"yes\" data-json-trace=\"" ++ (htmlEscape (traceText nils tr) ++
    (b!"\"><a href=\"" ++ (htmlEscape (urlToTrace tr.span.id.trace) ++ (b!"\">" ++ (htmlEscape tr.span.id.trace.toText ++
      (b!"</a><ul class=\"traces\">" ++ (spanHTML tr.span (shortRows reg tr.span.annotations) ++ b!"</ul></li>")))))))

/-- traceapp/tmpl/data/traces.html:46-76: the list of traces. -/
def tracesHTML (reg : Registry) (nils : SpanID → Bool × Bool) (trs : List Tree) : Bytes :=
  b!"<ul class=\"list-unstyled\">" ++ (trs.flatMap (traceItemHTML reg nils) ++ b!"</ul>")

/-- traceapp/tmpl/data/traces.html:117-128 `selected`: the traces of the checked boxes of the list, given the JSON texts of all boxes
and which are checked.  (If one of the texts is no JSON, the script stops.) -/
def selectedTraces (texts : List Bytes) (checked : List Bool) : Option (List JVal) :=
  ((texts.zip checked).filter fun p => p.2).mapM fun p => parseJSON p.1

/-! ## Scripts -/

/-- traceapp/vis.go:41-46: a `timelineItemTimespan` as JSON. -/
def timespanJSON (t : TimelineSpan) : JVal :=
  .obj [(b!"label", .str t.label), (b!"starting_time", .num (some t.start)), (b!"ending_time", .num (some t.fin)),
    (b!"duration", .num (some t.duration))]

/-- traceapp/vis.go:21-30: a `timelineItem` as JSON.  (`encoding/json` sorts the keys of the map `rawData`; scripts do not depend on
their order, and the model leaves it as it is.) -/
def itemJSON (i : TimelineItem) : JVal :=
  .obj [(b!"label", .str i.label), (b!"fullLabel", .str i.fullLabel), (b!"times", .arr (i.times.map timespanJSON)),
    (b!"rawData", .obj (i.data.map fun e => (e.1, .str e.2))), (b!"spanID", .str i.spanID),
    (b!"parentSpanID", .str i.parentSpanID), (b!"url", .str i.url), (b!"visible", .bool i.visible)]

/-- traceapp/tmpl/data/trace.html:156: `{{.VisData}}` in a script: `html/template` writes JSON, here of a non-empty list. -/
def scriptData (items : List TimelineItem) : Bytes := JVal.print .compact 0 (.arr (items.map itemJSON))

/-- What traceapp/tmpl/data/trace.html:385 (`tip.html(visibleData[index].fullLabel)`) makes the browser read as HTML when the mouse is
over an item. -/
def tooltipHTML (i : TimelineItem) : Bytes := i.fullLabel

/-- What traceapp/tmpl/data/trace.html:349 (`$("#contextMenu .name").html(datum.label)`) makes the browser read as HTML when the menu
of a timespan is opened (d3-timeline attaches the elements of `times` to the rectangles). -/
def menuHTML (t : TimelineSpan) : Bytes := t.label

end Appdash
