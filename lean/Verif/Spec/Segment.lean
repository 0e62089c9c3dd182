/-
How a text is written as a segment of a path.
-/
import Verif.Spec.Target
import Verif.Spec.Path

namespace Htrpc.Spec

/-- Characters that stay as they are in a segment that the client writes. -/
def plainInSegment (c : Char) : Bool := plainInPath c && !("/%\\".toList.contains c)

/-- A text as a segment: without tabs and line breaks, and with everything escaped that has a meaning in a
URL. -/
def asSegment (s : Str) : Str := writtenOut plainInSegment (strip s)

end Htrpc.Spec
