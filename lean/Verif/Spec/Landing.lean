/-
Where a path leads when its segments are added one after the other.
-/
import Verif.Spec.SentTarget

namespace Htrpc.Spec

/-- Where one more segment leads from a directory, which is the list of the segments below the root: `.`
and `..` lead nowhere. A segment that is `..` only without its tabs and line breaks replaces the last
segment by an empty one, and one that is `.` only without them is empty. Everything else is written out.
An empty segment directly below the root is the root. -/
def stepTo (dir : List Str) (s : Str) : List Str :=
  if s = ['.'] ∨ s = ['.', '.'] then dir
  else
    let dir' :=
      if strip s = ['.', '.'] then dir.dropLast ++ [[]]
      else if strip s = ['.'] then dir ++ [[]]
      else dir ++ [asSegment s]
    if dir' = [[]] then [] else dir'

/-- The segments of the path that results from adding the texts to the root, which has one segment, an
empty one. -/
def landing (texts : List Str) : List Str :=
  match texts.foldl stepTo [] with
  | [] => [[]]
  | segs => segs

/-- The same for texts without tabs and line breaks: without dot segments, and without empty segments at
the beginning. -/
def plainLanding (texts : List Str) : List Str :=
  match (texts.filter fun s => s ≠ ['.'] ∧ s ≠ ['.', '.']).dropWhile (· = []) with
  | [] => [[]]
  | ss => ss.map (writtenOut plainInSegment)

end Htrpc.Spec
