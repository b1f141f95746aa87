import Verif.Model.SampleData
import Verif.Spec.EndToEnd

/-!
# Specification of the sample data

A trace of the sample data is a root span and a chain of spans below it.  Span 0 is the root, and span `j + 1` is below span `j`.
-/

namespace Appdash.Spec

/-- The random ID of span `j`. -/
def sampleSpanAt (c : SampleInput) (j : Nat) : ID := if j = 0 then c.rootID else c.spanID j

/-- The ID of span `j`: its parent is the span before. -/
def sampleID (c : SampleInput) : Nat → SpanID
  | 0 => ⟨c.traceID, sampleSpanAt c 0, 0⟩
  | j + 1 => ⟨c.traceID, sampleSpanAt c (j + 1), sampleSpanAt c j⟩

/-- The chain of the spans `j`, `j + 1`, …, `j + k`. -/
def chain (id : Nat → SpanID) (j : Nat) : Nat → Tree
  | 0 => .node ⟨id j, []⟩ []
  | k + 1 => .node ⟨id j, []⟩ [chain id (j + 1) k]

/-- The events of span `j` of trace `i` with `n` spans below the root, where span `j` lasts from `t (j - 1)` to `t j`, and the root from `t 0`
to `t n`: the name, a log for spans 3 and 6, a message for span 5, and the query. -/
def SampleEvents (c : SampleInput) (i n : Nat) (t : Nat → GoTime) (j : Nat) (evs : List (EventType × GVal)) : Prop :=
  ∃ name tag, (if j = 0 then name ∈ fakeHosts else fakeNames[(i + j) % 20]? = some name) ∧ tag < 10 ∧
    evs = (spanNameEvent, .struct [.scalar (.string name)]) ::
      (if j = 3 ∨ j = 6 then [(logEvent, .struct [.scalar (.string b!"hello"), .scalar (.time (c.logNow j))])]
        else if j = 5 then [(msgEvent, .struct [.scalar (.string b!"hi")])] else []) ++
      [(sqlEvent, .struct [.scalar (.string b!"SELECT * FROM table_name;"), .scalar (.string (b!"fakeTag" ++ formatDec tag)),
        .scalar (.time (if j = 0 then t 0 else t (j - 1))), .scalar (.time (if j = 0 then t n else t j))])]

/-- The circumstances are normal: the collector accepts what it gets, `MarshalEvent` works as modelled, the random IDs are different from each other and
from 0, and the clock shows a time from 1970 to 2262. -/
structure Normal (zone : Int → Int) (c : SampleInput) : Prop where
  accepted : ∀ j as, (c.env j).answer [] (sampleID c j, as) = none
  marshals : ∀ j E v, E ∈ libraryEvents → ∃ as, c.marshal j E v = .ok as ∧ Marshals E v (.ok as)
  distinct : ∀ j k, j < k → k ≤ 6 → sampleSpanAt c j ≠ sampleSpanAt c k
  nonzero : ∀ j ≤ 6, sampleSpanAt c j ≠ 0
  zone : ∀ x, (zone x).natAbs < 1440
  after : 0 ≤ c.now.instant
  before : c.now.instant < 2 ^ 63
  log : ∀ j, tTime.holds (.scalar (.time (c.logNow j))) = true

/-- `t 0`, …, `t n` are the times at which the spans of the trace begin and end: they do not decrease, the first is less than 100 minutes
before the current time, and the last less than a second after the first. -/
structure SampleTimes (c : SampleInput) (n : Nat) (t : Nat → GoTime) : Prop where
  order : ∀ j < n, (t j).instant ≤ (t (j + 1)).instant
  begin_le : (t 0).instant ≤ c.now.instant
  recent : c.now.instant - (t 0).instant < 100 * 60 * 1000000000
  short : (t n).instant - (t 0).instant < 1000000000

/-- `MarshalEvent` gives no error for the events of the library. -/
def MarshalsAll (c : SampleInput) : Prop := ∀ j E v, E ∈ libraryEvents → ∃ as, c.marshal j E v = .ok as

end Appdash.Spec
