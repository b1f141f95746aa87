import Verif.Model.Dashboard

/-!
# Specification vocabulary for the dashboard
-/

namespace Appdash

/-- The row that a reader of the JSON data gets for a result: times in whole milliseconds, and a link. -/
def Spec.rowOf (r : AggResult) (link : Bytes) : JVal :=
  .obj [(b!"Name", .str (cleanUTF8 r.name)), (b!"Average", .num (some (r.average.tdiv 1000000))),
    (b!"Min", .num (some (r.min.tdiv 1000000))), (b!"Max", .num (some (r.max.tdiv 1000000))),
    (b!"StdDev", .num (some (r.stdDev.tdiv 1000000))), (b!"Timespans", .num (some r.samples)), (b!"URL", .str link)]

end Appdash
