import Verif.Model.Views
import Mathlib.Data.List.Forall2

/-!
# Specification of the profile, aggregate and timeline views
-/

namespace Appdash

mutual
/-- The subtrees of a tree, itself first, in depth-first order. -/
def Tree.subtrees : Tree → List Tree
  | .node s cs => .node s cs :: subtreesList cs
/-- The subtrees of a list of trees. -/
def subtreesList : List Tree → List Tree
  | [] => []
  | c :: cs => c.subtrees ++ subtreesList cs
end

/-- `x` is the longest of the durations of the timespan events (in milliseconds), or zero if none is positive. -/
structure IsOwnTime (millis : GoTime → GoTime → Int) (ts : List (Bytes × GoTime × GoTime)) (x : Int) : Prop where
  nonneg : 0 ≤ x
  ge : ∀ p ∈ ts, millis p.2.1 p.2.2 ≤ x
  attained : x = 0 ∨ ∃ p ∈ ts, x = millis p.2.1 p.2.2

/-- `own` gives the own times of the spans of a list, whose events can all be read. -/
def OwnTimes (env : ViewEnv) (own : Span → Int) (spans : List Span) : Prop :=
  ∀ s ∈ spans, ∃ ts, spanTimes env.reg s.annotations = some (.ok ts) ∧ IsOwnTime env.millis ts (own s)

/-- The profile entry of a tree: the times are its span's own time, that plus the own times of its children, and the sum of the
own times of all its spans. -/
structure EntryOf (own : Span → Int) (t : Tree) (p : Profile) : Prop where
  name : p.name = if annotationsName t.span.annotations = [] then t.span.id.span.toText else annotationsName t.span.annotations
  url : p.url = spanURL t.span.id
  time : p.time = own t.span
  timeChildren : p.timeChildren = own t.span + (t.sub.map fun c => own c.span).sum
  timeCum : p.timeCum = (t.spans.map own).sum

/-- The label under which a span counts. -/
def spanLabel (s : Span) : Bytes :=
  if annotationsName s.annotations = [] then s.id.span.toText else annotationsName s.annotations

/-- What a trace contributes to the aggregate view: labels and times. -/
def contributions (own : Span → Int) : AggMode → Tree → List (Bytes × Int)
  | .traceOnly, t => [(spanLabel t.span, (t.spans.map own).sum)]
  | .spanOnly, t => t.spans.tail.map fun s => (spanLabel s, own s)
  | .traceAndSpan, t => t.spans.tail.map fun s => (spanLabel t.span ++ b!": " ++ spanLabel s, own s)

/-- The times contributed under a label, in order. -/
def timesUnder (label : Bytes) (cs : List (Bytes × Int)) : List Int := (cs.filter fun c => c.1 = label).map Prod.snd

/-- The timespan events that the timeline can show: neither time is the zero time. -/
def validTimes (ts : List (Bytes × GoTime × GoTime)) : List (Bytes × GoTime × GoTime) :=
  ts.filter fun p => p.2.1 ≠ .zero ∧ p.2.2 ≠ .zero

/-- The span has a timespan event that the timeline can show. -/
def timed (env : ViewEnv) (s : Span) : Bool :=
  match spanTimes env.reg s.annotations with
  | some (.ok ts) => !(validTimes ts).isEmpty
  | _ => false

mutual
/-- The spans that the timeline shows, with their depths, in depth-first order: those that are timed and whose ancestors are all
timed. -/
def shown (env : ViewEnv) (depth : Nat) : Tree → List (Nat × Span)
  | .node s cs => if timed env s then (depth, s) :: shownList env (depth + 1) cs else []
/-- The same for a list of trees. -/
def shownList (env : ViewEnv) (depth : Nat) : List Tree → List (Nat × Span)
  | [] => []
  | c :: cs => shown env depth c ++ shownList env depth cs
end

/-- The duration of a timespan of the timeline in nanoseconds, as far as it is positive. -/
def TimelineSpan.length (ts : TimelineSpan) : Int := max 0 ((ts.fin - ts.start) * 1000000)

/-- The item of a span in the timeline, apart from its timespans. -/
structure ItemOf (depth : Nat) (s : Span) (i : TimelineItem) : Prop where
  label : i.label = annotationsName s.annotations
  fullLabel : i.fullLabel = annotationsName s.annotations
  data : i.data = stringMap s.annotations
  spanID : i.spanID = s.id.span.toText
  parentSpanID : i.parentSpanID = if s.id.parent = 0 then [] else s.id.parent.toText
  url : i.url = spanURL s.id
  visible : i.visible = true ↔ depth ≤ 1

/-- The timespans of the item of a root span: one for each event, in order. -/
def RootTimes (ts : List (Bytes × GoTime × GoTime)) (times : List TimelineSpan) : Prop :=
  List.Forall₂ (fun p (t : TimelineSpan) => t.start = unixMilli p.2.1 ∧ t.fin = unixMilli p.2.2) (validTimes ts) times

/-- The timespan of the item of another span: from the earliest start to the latest end. -/
structure MergedTime (ts : List (Bytes × GoTime × GoTime)) (t : TimelineSpan) : Prop where
  start_mem : ∃ p ∈ validTimes ts, t.start = unixMilli p.2.1
  start_le : ∀ p ∈ validTimes ts, t.start ≤ unixMilli p.2.1
  fin_mem : ∃ p ∈ validTimes ts, t.fin = unixMilli p.2.2
  le_fin : ∀ p ∈ validTimes ts, unixMilli p.2.2 ≤ t.fin

/-- Both kinds of timespans; `root` tells whether the span has no parent. -/
def TimesOf (root : Prop) (ts : List (Bytes × GoTime × GoTime)) (times : List TimelineSpan) : Prop :=
  (root → RootTimes ts times) ∧ (¬ root → ∃ t, times = [t] ∧ MergedTime ts t)

/-- No two times of the events are 292 years or more apart. -/
def TimesFit (ts : List (Bytes × GoTime × GoTime)) : Prop :=
  ∀ p ∈ ts, ∀ q ∈ ts, (unixMilli q.2.2 - unixMilli p.2.1) * 1000000 < 2 ^ 63 ∧
    -2 ^ 63 ≤ (unixMilli q.2.2 - unixMilli p.2.1) * 1000000

/-- All spans are named and their events can be read. -/
def Readable (env : ViewEnv) (spans : List Span) : Prop :=
  ∀ s ∈ spans, annotationsName s.annotations ≠ [] ∧ ∃ ts, spanTimes env.reg s.annotations = some (.ok ts)

mutual

/-- `s` is a span of the tree such that it and all spans above it are timed. -/
inductive TimedPath (env : ViewEnv) : Tree → Span → Prop
  | here (s : Span) (cs : List Tree) : timed env s = true → TimedPath env (.node s cs) s
  | under (s : Span) (cs : List Tree) (x : Span) : timed env s = true → TimedPathIn env cs x → TimedPath env (.node s cs) x

/-- The same in one of a list of trees. -/
inductive TimedPathIn (env : ViewEnv) : List Tree → Span → Prop
  | head (c : Tree) (cs : List Tree) (x : Span) : TimedPath env c x → TimedPathIn env (c :: cs) x
  | tail (c : Tree) (cs : List Tree) (x : Span) : TimedPathIn env cs x → TimedPathIn env (c :: cs) x

end

end Appdash
