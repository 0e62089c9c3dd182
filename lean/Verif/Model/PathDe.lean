/-
src/deserializers/url_path.rs: `UrlPathDeserializer`.
-/
import Verif.Model.Visit
import Verif.Model.Url
import Verif.Model.Entry

namespace Htrpc

/-- src/deserializers/url_path.rs:351 `u32::from_str_radix(h0 h1, 16)`: two hexadecimal digits,
or `+` and one. -/
def hexPair (h0 h1 : Char) : Option Nat :=
  if h0 = '+' then hexVal h1
  else
    match hexVal h0, hexVal h1 with
    | some a, some b => some (a * 16 + b)
    | _, _ => none

/-- src/deserializers/url_path.rs:340-361 `percent_decode`: each escape becomes the character with
that code.  Codes are below 256, so `char::from_u32` never fails. -/
def percentDecode : Str → Option Str
  | [] => some []
  | c :: cs =>
    if c = '%' then
      match cs with
      | h0 :: h1 :: rest =>
        match hexPair h0 h1 with
        | some n => (percentDecode rest).map (Char.ofNat n :: ·)
        | none => none
      | _ => none
    else (percentDecode cs).map (c :: ·)

/-- src/deserializers/url_path.rs:13-19 `UrlPathDeserializer`; `rest` is
`entry_point.segments()[index..]`, replacing `index`; `segs` are the segments not yet taken. -/
structure PathDe where
  inSeq : Bool
  segs : List Str
  rest : List Seg
  freeVars : Nat
deriving DecidableEq, Repr

namespace PathDe

/-- src/deserializers/url_path.rs:22-33 `new`. -/
def new (entry : EntryPoint) (segs : Option (List Str)) : Res PathDe := do
  let segs ← Res.ofOption segs
  .ok { inSeq := false, segs, rest := entry, freeVars := varCount entry }

/-- src/deserializers/url_path.rs:37-49 `finish`. -/
def finish : List Seg → List Str → Res (List Str)
  | [], segs => .ok segs
  | .var :: _, _ => .err .invalid
  | .val _ :: _, [] => .err .invalid
  | .val e :: rest, a :: segs => do
    Res.check (a == e)
    finish rest segs

/-- src/deserializers/url_path.rs:50-67 `next_value`: the raw segment and the remaining entry
point, segments and variable count.  The subtraction in line 63 panics below zero. -/
def nextValue : List Seg → List Str → Nat → Res (Str × List Seg × List Str × Nat)
  | [], _, _ => .err .invalid
  | _ :: _, [], _ => .err .invalid
  | .val e :: rest, s :: segs, fv => do
    Res.check (s == e)
    nextValue rest segs fv
  | .var :: rest, s :: segs, fv =>
    match fv with
    | 0 => .panic
    | fv + 1 => .ok (s, rest, segs, fv)

/-- A value made from the next segment by `f`; `f` failing is an `Invalid` error
(src/error.rs:31-55). -/
def scalar (f : Str → Option Val) (st : PathDe) : Res (Val × PathDe) := do
  let (s, rest, segs, fv) ← nextValue st.rest st.segs st.freeVars
  let v ← Res.ofOption ((percentDecode s).bind f)
  .ok (v, { st with rest, segs, freeVars := fv })

/-- src/deserializers/url_path.rs:242-249 `deserialize_seq` before visiting. -/
def enterSeq (st : PathDe) : Res PathDe := do
  Res.check (!st.inSeq)
  .ok { st with inSeq := true }

/-- src/deserializers/url_path.rs:317-328 `next_element_seed`. -/
def nextElement (dec : Dec PathDe) (st : PathDe) : Res (Option Val × PathDe) :=
  if st.freeVars = 0 then do
    let segs ← finish st.rest st.segs
    -- `finish` does not advance `index`
    .ok (none, { st with segs })
  else do
    let (v, st) ← dec st
    .ok (some v, st)

variable [FloatText]

mutual
/-- src/deserializers/url_path.rs:69-314, driven by the type's `Deserialize` implementation. -/
def de : Ty → Dec PathDe
  -- lines 78-85, 331-338
  | .bool => scalar fun s => (parseBool s).map .bool
  -- lines 87-157
  | .int t => scalar fun s => (parseInt t s).map (.int t)
  -- lines 159-175
  | .f32 => scalar fun s => (FloatText.parse32 s).map .f32
  | .f64 => scalar fun s => (FloatText.parse64 s).map .f64
  -- lines 177-182
  | .char => fun _ => .err .invalid
  -- lines 184-198
  | .str => scalar fun s => some (.str s)
  -- lines 200-233
  | .bytes => fun _ => .err .invalid
  | .option _ => fun _ => .err .invalid
  | .unit => fun _ => .err .invalid
  | .unitStruct _ => fun _ => .err .invalid
  -- lines 235-240
  | .newtypeStruct t => fun st => do
    let (v, st) ← de t st
    .ok (.newtypeStruct v, st)
  -- lines 242-249 with `Vec`'s visitor
  | .seq t => fun st => do
    let st ← enterSeq st
    let (vs, st) ← visitSeq (nextElement (de t)) (st.freeVars + 1) [] st
    .ok (.seq vs, st)
  -- lines 251-268 with the visitors of tuples: `next_element` once per component
  | .tuple ts => fun st => do
    let st ← enterSeq st
    let (vs, st) ← deAll ts st
    .ok (.tuple vs, st)
  | .tupleStruct ts => fun st => do
    let st ← enterSeq st
    let (vs, st) ← deAll ts st
    .ok (.tupleStruct vs, st)
  -- lines 270-299
  | .map _ _ => fun _ => .err .invalid
  | .struct _ => fun _ => .err .invalid
  | .enum _ => fun _ => .err .invalid
/-- Tuple visitor: a missing element is an error (`invalid_length`). -/
def deAll : List Ty → PathDe → Res (List Val × PathDe)
  | [], st => .ok ([], st)
  | t :: ts, st => do
    match ← nextElement (de t) st with
    | (none, _) => .err .invalid
    | (some v, st) => do
      let (vs, st) ← deAll ts st
      .ok (v :: vs, st)
end

end PathDe

/-- Decode the path of a request (src/deserializers/rpc_request.rs:268-272). -/
def dePath [FloatText] (entry : EntryPoint) (t : Ty) (segs : Option (List Str)) : Res Val := do
  let st ← PathDe.new entry segs
  let (v, _) ← PathDe.de t st
  .ok v

end Htrpc
