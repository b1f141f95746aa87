import Verif.Model.Json
import Verif.Model.Views

/-!
# Specification vocabulary: how the script of a page reads the timeline's data
-/

namespace Appdash

/-- The member of an object. -/
def jsonMember (name : Bytes) : JVal → Option JVal
  | .obj l => (l.find? fun m => m.1 == name).map Prod.snd
  | _ => none

/-- A string member. -/
def stringMember (name : Bytes) (v : JVal) : Option Bytes :=
  match jsonMember name v with
  | some (.str s) => some s
  | _ => none

/-- An integer member. -/
def intMember (name : Bytes) (v : JVal) : Option Int :=
  match jsonMember name v with
  | some (.num (some i)) => some i
  | _ => none

/-- A timespan: traceapp/tmpl/data/trace.html and d3-timeline use these members. -/
def readTimespan (v : JVal) : Option TimelineSpan := do
  let label ← stringMember b!"label" v
  let start ← intMember b!"starting_time" v
  let fin ← intMember b!"ending_time" v
  let duration ← intMember b!"duration" v
  return ⟨label, start, fin, duration⟩

/-- An entry of the raw data. -/
def readEntry : Bytes × JVal → Option (Bytes × Bytes)
  | (k, .str s) => some (k, s)
  | _ => none

/-- An item. -/
def readItem (v : JVal) : Option TimelineItem := do
  let label ← stringMember b!"label" v
  let fullLabel ← stringMember b!"fullLabel" v
  let times ← match jsonMember b!"times" v with
    | some (.arr l) => l.mapM readTimespan
    | _ => none
  let data ← match jsonMember b!"rawData" v with
    | some (.obj l) => l.mapM readEntry
    | _ => none
  let spanID ← stringMember b!"spanID" v
  let parentSpanID ← stringMember b!"parentSpanID" v
  let url ← stringMember b!"url" v
  let visible ← match jsonMember b!"visible" v with
    | some (.bool b) => some b
    | _ => none
  return { label, fullLabel, times, data, spanID, parentSpanID, url, visible }

/-- A list of items. -/
def readItems : JVal → Option (List TimelineItem)
  | .arr l => l.mapM readItem
  | _ => none

/-- An item with U+FFFD for everything in its texts that is not UTF-8. -/
def TimelineItem.clean (i : TimelineItem) : TimelineItem :=
  { label := cleanUTF8 i.label, fullLabel := cleanUTF8 i.fullLabel,
    times := i.times.map fun t => { t with label := cleanUTF8 t.label },
    data := i.data.map fun e => (cleanUTF8 e.1, cleanUTF8 e.2), spanID := cleanUTF8 i.spanID,
    parentSpanID := cleanUTF8 i.parentSpanID, url := cleanUTF8 i.url, visible := i.visible }

end Appdash
